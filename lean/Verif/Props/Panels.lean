import Verif.Model.Panels
import Verif.Props.PlotUtils
import Verif.Props.ChainStats
import Mathlib.Probability.Distributions.Gaussian.Real
import Mathlib.Tactic.Linarith
import Mathlib.Tactic.NormNum
import Mathlib.Tactic.Ring
import Mathlib.Tactic.FinCases

/-!
# Properties C89 – C91: plots of the chains
-/

set_option linter.unusedSectionVars false

namespace Verif

/-! ### C89: panels -/

/-- the name a plot should show for parameter `k`: the user's, or the default `$p_{k}$` -/
def shownName (names : Option (List (List Char))) (k : ℕ) : List Char :=
  ((names.getD [])[k]?).getD ("$p_{".toList ++ Nat.toDigits 10 k ++ "}$".toList)

/-- row of a subplot in its grid, counted from 0 at the top -/
def Panel.row {α : Type} (q : Panel α) : ℤ := (q.index - 1) / q.cols

/-- column of a subplot in its grid, counted from 0 at the left -/
def Panel.col {α : Type} (q : Panel α) : ℤ := (q.index - 1) % q.cols

theorem names_get (p : ℕ) (names : Option (List (List Char))) {k : ℕ} (hk : k < p) :
    pyGet (generateNames p names) k = .ok (shownName names k) := by
  rw [pyGet_ok]
  unfold generateNames shownName
  cases names with
  | none =>
    simp [generateDefaultNames, defaultName, dec, hk]
  | some l =>
    simp only [Option.getD_some]
    split
    · unfold extendNames
      simp only [Option.getD_some]
      rcases Nat.lt_or_ge k l.length with h | h
      · rw [List.getElem?_append_left h, List.getElem?_eq_getElem h]; simp
      · rw [List.getElem?_append_right h, List.getElem?_eq_none h]
        rw [List.getElem?_map, List.getElem?_range' (by omega)]
        simp [defaultName, dec, Nat.add_sub_cancel' h]
    · rename_i h
      have h' : l.length = p := by simpa using h
      rw [List.getElem?_eq_getElem (by omega)]; simp

section
variable {F : Type} {p : ℕ}

theorem subplot_grid (ii : Fin p) :
    subplot (generateSubplotGrid p).1 (generateSubplotGrid p).2 (ii + 1) = .ok () := by
  have hp : 1 ≤ p := by have := ii.2; omega
  obtain ⟨h, -⟩ := C48_grid p hp
  unfold subplot
  rw [if_pos]
  have := ii.2
  omega

/-- the rows `chains[inds, k]` exist when the indices are valid -/
theorem rows_get {chains : List (Fin p → F)} {inds : List ℕ} (h : ∀ i ∈ inds, i < chains.length)
    (f : (Fin p → F) → F) :
    ∃ c, (inds.mapM fun i => (pyGet chains i).map f) = .ok c ∧ c.length = inds.length ∧
      ∀ (k a : ℕ) (b : F), inds[k]? = some a → c[k]? = some b →
        ∃ r, chains[a]? = some r ∧ b = f r := by
  induction inds with
  | nil => exact ⟨[], rfl, rfl, by simp⟩
  | cons i inds ih =>
    obtain ⟨c, hc, hl, hv⟩ := ih fun j hj => h j (List.mem_cons_of_mem _ hj)
    have hi := h i List.mem_cons_self
    refine ⟨f chains[i] :: c, ?_, by simp [hl], ?_⟩
    · rw [List.mapM_cons, hc]
      have : pyGet chains i = .ok chains[i] := by rw [pyGet_ok, List.getElem?_eq_getElem hi]
      rw [this]; rfl
    · rintro (_ | k) a b ha hb
      · simp only [List.getElem?_cons_zero, Option.some.injEq] at ha hb
        subst ha hb
        exact ⟨_, List.getElem?_eq_getElem hi, rfl⟩
      · exact hv k a b (by simpa using ha) (by simpa using hb)

theorem zip_spec {α β : Type} {l : List α} {c : List β} (hl : c.length = l.length) :
    (l.zip c).map Prod.fst = l ∧ ∀ x ∈ l.zip c, ∃ k : ℕ, l[k]? = some x.1 ∧ c[k]? = some x.2 := by
  refine ⟨List.map_fst_zip (by omega), fun x hx => ?_⟩
  obtain ⟨k, hk, he⟩ := List.mem_iff_getElem.1 hx
  rw [List.getElem_zip] at he
  rw [List.length_zip] at hk
  refine ⟨k, ?_, ?_⟩
  · rw [List.getElem?_eq_getElem (by omega), ← he]
  · rw [List.getElem?_eq_getElem (by omega), ← he]

theorem finRange_map_get {β : Type} (g : Fin p → β) (ii : Fin p) :
    ((List.finRange p).map g)[(ii : ℕ)]? = some (g ii) := by
  rw [List.getElem?_map, List.getElem?_eq_getElem (by simp)]
  simp

/-- **C89.** `plot_chain_panel` draws, for every non-empty chain and every list of names, one subplot
per parameter; all lie in one grid and subplot `k` is the `k`-th place of it.  It shows the selected
rows of column `k` against their numbers, is labelled with the name of parameter `k`, and has the
label `Iteration` exactly in the last row of the grid. -/
theorem C89_chain {chains : List (Fin p → F)} {skip maxpoints : ℕ} (hc : chains ≠ [])
    (hs : 1 ≤ skip) (hm : 1 ≤ maxpoints) (names : Option (List (List Char))) :
    ∃ inds fig R C, setupSubsample skip maxpoints chains.length = .ok inds ∧
      plotChainPanel chains names skip maxpoints = .ok fig ∧ fig.panels.length = p ∧
      (1 ≤ p → (p : ℤ) ≤ R * C) ∧
      ∀ ii : Fin p, ∃ q, fig.panels[(ii : ℕ)]? = some q ∧
        q.rows = R ∧ q.cols = C ∧ q.index = ii + 1 ∧
        q.content.map Prod.fst = inds ∧
        (∀ pt ∈ q.content, ∃ r, chains[pt.1]? = some r ∧ pt.2 = r ii) ∧
        q.ylabel = shownName names ii ∧
        (q.xlabel = "Iteration".toList ↔ q.row = R - 1) ∧ (q.xlabel = [] ↔ q.row ≠ R - 1) := by
  have hn : 1 ≤ chains.length := List.length_pos_iff.2 hc
  obtain ⟨inds, -, hi, -, -, -, hv, -⟩ := C47_rows_partial hs hm hn
  have hch := fun ii : Fin p => rows_get hv fun r => r ii
  choose c hc1 hc2 hc3 using hch
  let g := generateSubplotGrid p
  let q : Fin p → Panel (List (ℕ × F)) := fun ii =>
    { rows := g.1, cols := g.2, index := ii + 1, content := inds.zip (c ii)
      xlabel := if (ii : ℤ) + 1 ≤ g.1 * g.2 - g.2 then [] else "Iteration".toList
      ylabel := shownName names ii }
  have hq : ∀ ii ∈ List.finRange p,
      chainPanelAt chains inds (generateSubplotGrid p) (generateNames p names) ii = .ok (q ii) := by
    intro ii _
    unfold chainPanelAt
    rw [hc1 ii, ok_bind, subplot_grid ii, ok_bind, names_get p names ii.2, ok_bind]
  refine ⟨inds, ⟨(List.finRange p).map q, namesAfter p names⟩, g.1, g.2, hi, ?_, by simp,
    fun h => (C48_grid p h).1, fun ii => ⟨q ii, finRange_map_get q ii, rfl, rfl, rfl,
      (zip_spec (hc2 ii)).1, fun pt hpt => ?_, rfl, ?_⟩⟩
  · unfold plotChainPanel
    rw [hi, ok_bind, mapM_eq_ok hq, ok_bind]
  · obtain ⟨k, ha, hb⟩ := (zip_spec (hc2 ii)).2 pt hpt
    exact hc3 ii k _ _ ha hb
  · have hp : 1 ≤ p := by have := ii.2; omega
    obtain ⟨h1, -, -, hR, hC⟩ := C48_grid p hp
    have hlt : (ii : ℤ) < g.1 * g.2 := by have := ii.2; simp only [g]; omega
    have hC0 : (0 : ℤ) < g.2 := by simp only [g]; omega
    have hrow : (q ii).row = (ii : ℤ) / g.2 := by simp [Panel.row, q]
    have key : (ii : ℤ) / g.2 = g.1 - 1 ↔ ¬ ((ii : ℤ) + 1 ≤ g.1 * g.2 - g.2) := by
      have e : g.1 * g.2 - g.2 = (g.1 - 1) * g.2 := by ring
      constructor
      · intro h hle
        have := Int.ediv_mul_le (ii : ℤ) (b := g.2) (by omega)
        rw [h] at this
        rw [e] at hle
        omega
      · intro h
        apply le_antisymm
        · have : (ii : ℤ) / g.2 < g.1 := Int.ediv_lt_of_lt_mul hC0 hlt
          omega
        · rw [Int.le_ediv_iff_mul_le hC0, ← e]
          omega
    rw [hrow, ne_eq, key]
    simp only [q]
    by_cases hle : (ii : ℤ) + 1 ≤ g.1 * g.2 - g.2
    · simp [hle]
    · simp [hle]

/-- **C89.** `plot_histogram_panel` draws one subplot per parameter, the `k`-th from all rows of
column `k` and labelled with its name. -/
theorem C89_histogram (chains : List (Fin p → F)) (names : Option (List (List Char))) :
    ∃ fig R C, plotHistogramPanel chains names = .ok fig ∧ fig.panels.length = p ∧
      (1 ≤ p → (p : ℤ) ≤ R * C) ∧
      ∀ ii : Fin p, ∃ q, fig.panels[(ii : ℕ)]? = some q ∧
        q.rows = R ∧ q.cols = C ∧ q.index = ii + 1 ∧ q.content = chains.map (fun r => r ii) ∧
        q.xlabel = shownName names ii := by
  let g := generateSubplotGrid p
  let q : Fin p → Panel (List F) := fun ii =>
    { rows := g.1, cols := g.2, index := ii + 1, content := chains.map fun r => r ii
      xlabel := shownName names ii }
  have hq : ∀ ii ∈ List.finRange p,
      histogramPanelAt chains (generateSubplotGrid p) (generateNames p names) ii = .ok (q ii) := by
    intro ii _
    unfold histogramPanelAt
    rw [subplot_grid ii, ok_bind, names_get p names ii.2, ok_bind]
  refine ⟨⟨(List.finRange p).map q, namesAfter p names⟩, g.1, g.2, ?_, by simp,
    fun h => (C48_grid p h).1, fun ii => ⟨q ii, finRange_map_get q ii, rfl, rfl, rfl, rfl, rfl⟩⟩
  unfold plotHistogramPanel
  rw [mapM_eq_ok hq, ok_bind]

/-- **C89.** `plot_density_panel` draws one subplot per parameter, the `k`-th with the density
estimate computed from all rows of column `k`, evaluated at the grid of the same column, and
labelled with its name. -/
theorem C89_density (kde : List ℝ → Option ℝ → ℝ) {chains : List (Fin p → ℝ)} (hc : chains ≠ [])
    (names : Option (List (List Char))) (hist : Bool) :
    ∃ fig R C, plotDensityPanel kde chains names hist = .ok fig ∧ fig.panels.length = p ∧
      (1 ≤ p → (p : ℤ) ≤ R * C) ∧
      ∀ ii : Fin p, ∃ q, ∃ grid : List (Option ℝ), fig.panels[(ii : ℕ)]? = some q ∧
        q.rows = R ∧ q.cols = C ∧ q.index = ii + 1 ∧ q.content.sample = chains.map (fun r => r ii) ∧
        makeXGrid (chains.map fun r => r ii) 100 = .ok grid ∧
        q.content.curve = grid.map (fun t => (t, kde (chains.map fun r => r ii) t)) ∧
        q.content.hist = hist ∧ q.xlabel = shownName names ii := by
  let g := generateSubplotGrid p
  have hgrid : ∀ ii : Fin p, ∃ grid, makeXGrid (chains.map fun r => r ii) 100 = .ok grid := by
    intro ii
    cases chains with
    | nil => exact absurd rfl hc
    | cons r l =>
      simp only [List.map_cons, makeXGrid]
      split <;> exact ⟨_, rfl⟩
  choose grid hgr using hgrid
  let q : Fin p → Panel DensityCurve := fun ii =>
    { rows := g.1, cols := g.2, index := ii + 1
      content := ⟨chains.map fun r => r ii,
        (grid ii).map fun t => (t, kde (chains.map fun r => r ii) t), hist⟩
      xlabel := shownName names ii
      ylabel := "$\\pi$(".toList ++ shownName names ii ++ "$|M^{data}$)".toList }
  have hq : ∀ ii ∈ List.finRange p, densityPanelAt kde chains (generateSubplotGrid p)
      (generateNames p names) hist ii = .ok (q ii) := by
    intro ii _
    unfold densityPanelAt
    dsimp only
    rw [hgr ii, ok_bind, subplot_grid ii, ok_bind, names_get p names ii.2, ok_bind]
  refine ⟨⟨(List.finRange p).map q, namesAfter p names⟩, g.1, g.2, ?_, by simp,
    fun h => (C48_grid p h).1, fun ii => ⟨q ii, grid ii, finRange_map_get q ii, rfl, rfl, rfl, rfl,
      hgr ii, rfl, rfl, rfl⟩⟩
  unfold plotDensityPanel
  rw [mapM_eq_ok hq, ok_bind]

/-! #### Pairs -/

theorem mem_pairLoop {p : ℕ} {x : ℕ × ℕ} : x ∈ pairLoop p ↔ 1 ≤ x.2 ∧ x.2 < x.1 ∧ x.1 ≤ p := by
  unfold pairLoop
  simp only [List.mem_flatMap, List.mem_range', List.mem_map]
  constructor
  · rintro ⟨jj, ⟨a, ha, rfl⟩, ii, ⟨b, hb, rfl⟩, rfl⟩
    dsimp only; omega
  · rintro ⟨h1, h2, h3⟩
    exact ⟨x.1, ⟨x.1 - 2, by omega, by omega⟩, x.2, ⟨x.2 - 1, by omega, by omega⟩, rfl⟩

theorem nodup_pairLoop (p : ℕ) : (pairLoop p).Nodup := by
  unfold pairLoop
  rw [List.nodup_flatMap]
  constructor
  · intro jj _
    exact (List.nodup_range' (s := 1) (n := jj - 1)).map fun a b h => by simpa using h
  · refine (List.nodup_range' (s := 2) (n := p - 1)).imp ?_
    intro a b hab x hx hy
    rw [List.mem_map] at hx hy
    obtain ⟨i, -, rfl⟩ := hx
    obtain ⟨j, -, he⟩ := hy
    exact hab (congrArg Prod.fst he).symm

theorem columnAt_ok {chains : List (Fin p → F)} {inds : List ℕ}
    (h : ∀ i ∈ inds, i < chains.length) (k : Fin p) :
    ∃ c, columnAt chains inds k = .ok c ∧ c.length = inds.length ∧
      ∀ (n a : ℕ) (b : F), inds[n]? = some a → c[n]? = some b →
        ∃ r, chains[a]? = some r ∧ b = r k := by
  obtain ⟨c, h1, h2, h3⟩ := rows_get h fun r => r k
  refine ⟨c, ?_, h2, h3⟩
  unfold columnAt
  rw [← h1]
  congr 1
  funext i
  cases pyGet chains i with
  | error e => rfl
  | ok r =>
    have : pyGet (List.ofFn r) k = .ok (r k) := by
      rw [pyGet_ok]; simp
    exact this

/-- **C89.** `plot_pairwise_correlation_panel` draws, for every non-empty chain, exactly one subplot
for every pair of parameters `i < j`, in row `j - 1` and column `i` of a square grid.  It shows
the selected rows of column `i` (horizontally) against those of column `j` (vertically).  The
vertical axis is labelled with the name of `j` in the first column of the grid and the name of
`i` stands at the subplots of the diagonal; there are no other texts. -/
theorem C89_pairs {chains : List (Fin p → F)} {skip maxpoints : ℕ} (hc : chains ≠ [])
    (hs : 1 ≤ skip) (hm : 1 ≤ maxpoints) (names : Option (List (List Char))) :
    ∃ inds fig, ∃ pan : Fin p → Fin p → Panel (List (F × F)),
      setupSubsample skip maxpoints chains.length = .ok inds ∧
      plotPairwise chains names skip maxpoints = .ok fig ∧
      (∀ q, q ∈ fig.panels ↔ ∃ i j, i < j ∧ q = pan i j) ∧
      (fig.panels.map fun q => q.index).Nodup ∧
      ∀ i j : Fin p, i < j →
        (pan i j).rows = p - 1 ∧ (pan i j).cols = p - 1 ∧ (pan i j).row = j - 1 ∧
        (pan i j).col = i ∧
        (pan i j).content.length = inds.length ∧
        (∀ n k : ℕ, inds[n]? = some k → ∃ r, chains[k]? = some r ∧
          (pan i j).content[n]? = some (r i, r j)) ∧
        (pan i j).ylabel = (if (i : ℕ) = 0 then shownName names j else []) ∧
        (pan i j).title = (if (i : ℕ) + 1 = j ∧ p ≠ 2 then shownName names i else []) ∧
        (pan i j).xlabel = (if p = 2 then shownName names i else []) := by
  have hn : 1 ≤ chains.length := List.length_pos_iff.2 hc
  obtain ⟨inds, -, hi, -, -, -, hv, -⟩ := C47_rows_partial hs hm hn
  have hch := fun k : Fin p => columnAt_ok hv k
  choose c hc1 hc2 hc3 using hch
  let pan : Fin p → Fin p → Panel (List (F × F)) := fun i j =>
    { rows := (p : ℤ) - 1, cols := (p : ℤ) - 1
      index := ((j : ℤ) - 1) * ((p : ℤ) - 1) + (i + 1), content := (c i).zip (c j)
      ylabel := if (i : ℕ) = 0 then shownName names j else []
      xlabel := if (i : ℕ) + 1 = j ∧ p = 2 then shownName names i else []
      title := if (i : ℕ) + 1 = j ∧ p ≠ 2 then shownName names i else [] }
  have hpan : ∀ i j : Fin p, i < j →
      pairPanelAt chains inds (generateNames p names) (j + 1) (i + 1) = .ok (pan i j) := by
    intro i j hij
    have hij' : (i : ℕ) < j := hij
    have hj := j.2
    unfold pairPanelAt
    simp only [Nat.add_sub_cancel]
    rw [hc1 i, ok_bind, hc1 j, ok_bind]
    have hsub : subplot ((p : ℤ) - 1) ((p : ℤ) - 1)
        (((((j : ℕ) + 1 : ℕ) : ℤ) - 2) * ((p : ℤ) - 1) + (((i : ℕ) + 1 : ℕ) : ℤ)) = .ok () := by
      unfold subplot
      rw [if_pos]
      have hp1 : (0 : ℤ) ≤ (p : ℤ) - 1 := by omega
      have e1 : (0 : ℤ) ≤ ((((j : ℕ) + 1 : ℕ) : ℤ) - 2) * ((p : ℤ) - 1) :=
        mul_nonneg (by omega) hp1
      have e2 : ((((j : ℕ) + 1 : ℕ) : ℤ) - 2) * ((p : ℤ) - 1) ≤ ((p : ℤ) - 2) * ((p : ℤ) - 1) :=
        mul_le_mul_of_nonneg_right (by omega) hp1
      have e3 : ((p : ℤ) - 1) * ((p : ℤ) - 1) = ((p : ℤ) - 2) * ((p : ℤ) - 1) + ((p : ℤ) - 1) := by
        ring
      constructor
      · omega
      · rw [e3]; omega
    rw [hsub, ok_bind, names_get p names j.2, ok_bind, names_get p names i.2, ok_bind]
    have e : (((((j : ℕ) + 1 : ℕ) : ℤ) - 2) * ((p : ℤ) - 1) + (((i : ℕ) + 1 : ℕ) : ℤ)) =
        ((j : ℤ) - 1) * ((p : ℤ) - 1) + (i + 1) := by push_cast; ring
    rw [e]
    simp only [pan, Nat.add_eq_right]
  have hrc : ∀ i j : Fin p, i < j → (pan i j).row = j - 1 ∧ (pan i j).col = i := by
    intro i j hij
    have hij' : (i : ℕ) < j := hij
    have hj := j.2
    have hp0 : (0 : ℤ) < (p : ℤ) - 1 := by omega
    have hidx : (pan i j).index - 1 = (i : ℤ) + ((j : ℤ) - 1) * ((p : ℤ) - 1) := by
      simp only [pan]; ring
    unfold Panel.row Panel.col
    rw [hidx]
    simp only [pan]
    rw [Int.add_mul_ediv_right _ _ hp0.ne', Int.add_mul_emod_self_right,
      Int.ediv_eq_zero_of_lt (by omega) (by omega), Int.emod_eq_of_lt (by omega) (by omega)]
    exact ⟨by ring, rfl⟩
  let panN : ℕ × ℕ → Panel (List (F × F)) := fun x =>
    if h : x.1 - 1 < p ∧ x.2 - 1 < p then pan ⟨x.2 - 1, h.2⟩ ⟨x.1 - 1, h.1⟩
    else ⟨0, 0, 0, [], [], [], []⟩
  have hN : ∀ x ∈ pairLoop p, ∃ i j : Fin p, i < j ∧ x = ((j : ℕ) + 1, (i : ℕ) + 1) ∧
      panN x = pan i j := by
    intro x hx
    obtain ⟨h1, h2, h3⟩ := mem_pairLoop.1 hx
    refine ⟨⟨x.2 - 1, by omega⟩, ⟨x.1 - 1, by omega⟩, ?_, ?_, ?_⟩
    · show x.2 - 1 < x.1 - 1
      omega
    · ext <;> dsimp only <;> omega
    · simp only [panN]
      rw [dif_pos ⟨by omega, by omega⟩]
  have hmap : ∀ x ∈ pairLoop p,
      pairPanelAt chains inds (generateNames p names) x.1 x.2 = .ok (panN x) := by
    intro x hx
    obtain ⟨i, j, hij, rfl, hp⟩ := hN x hx
    rw [hp]
    exact hpan i j hij
  refine ⟨inds, ⟨(pairLoop p).map panN, namesAfter p names⟩, pan, hi, ?_, ?_, ?_, ?_⟩
  · unfold plotPairwise
    rw [hi, ok_bind, mapM_eq_ok hmap, ok_bind]
  · intro q
    rw [List.mem_map]
    constructor
    · rintro ⟨x, hx, rfl⟩
      obtain ⟨i, j, hij, -, hp⟩ := hN x hx
      exact ⟨i, j, hij, hp⟩
    · rintro ⟨i, j, hij, rfl⟩
      have hij' : (i : ℕ) < j := hij
      have hx : ((j : ℕ) + 1, (i : ℕ) + 1) ∈ pairLoop p :=
        mem_pairLoop.2 ⟨by dsimp only; omega, by dsimp only; omega, j.2⟩
      refine ⟨_, hx, ?_⟩
      simp only [panN, Nat.add_sub_cancel]
      rw [dif_pos ⟨j.2, i.2⟩]
  · rw [List.map_map]
    refine (nodup_pairLoop p).map_on fun x hx y hy hxy => ?_
    obtain ⟨i, j, hij, rfl, hp⟩ := hN x hx
    obtain ⟨i', j', hij', rfl, hp'⟩ := hN y hy
    simp only [Function.comp_apply, hp, hp'] at hxy
    obtain ⟨r1, c1⟩ := hrc i j hij
    obtain ⟨r2, c2⟩ := hrc i' j' hij'
    have er : (pan i j).row = (pan i' j').row := by
      unfold Panel.row; rw [hxy]
    have ec : (pan i j).col = (pan i' j').col := by
      unfold Panel.col; rw [hxy]
    rw [r1, r2] at er
    rw [c1, c2] at ec
    ext <;> dsimp only <;> omega
  · intro i j hij
    have hij' : (i : ℕ) < j := hij
    have hj := j.2
    refine ⟨rfl, rfl, (hrc i j hij).1, (hrc i j hij).2, ?_, ?_, rfl, rfl, ?_⟩
    · simp only [pan, List.length_zip, hc2]; omega
    · intro n k hk
      have hnl : n < inds.length := by
        by_contra hge
        rw [List.getElem?_eq_none (by omega)] at hk
        cases hk
      obtain ⟨r, hr, e1⟩ := hc3 i n k _ hk (List.getElem?_eq_getElem (by rw [hc2]; exact hnl))
      obtain ⟨r', hr', e2⟩ := hc3 j n k _ hk (List.getElem?_eq_getElem (by rw [hc2]; exact hnl))
      rw [hr] at hr'
      cases hr'
      refine ⟨r, hr, ?_⟩
      simp only [pan]
      rw [List.getElem?_eq_getElem (by rw [List.length_zip, hc2, hc2]; omega), List.getElem_zip, e1,
        e2]
    · simp only [pan]
      by_cases hp : p = 2
      · rw [if_pos ⟨by omega, hp⟩, if_pos hp]
      · rw [if_neg (fun h => hp h.2), if_neg hp]

end

/-- three parameters, four rows; the user names only the first two -/
def panelChains : List (Fin 3 → ℚ) := [![1, 2, 3], ![4, 5, 6], ![7, 8, 9], ![0, 1, 2]]

/-- the statements above are about figures like these -/
example : panelChains ≠ [] ∧ shownName (some ["a".toList, "b".toList]) 1 = "b".toList ∧
    shownName (some ["a".toList, "b".toList]) 2 = "$p_{2}$".toList ∧
    (plotPairwise panelChains (some ["a".toList, "b".toList]) 2 500).map (fun f => f.panels.map
      fun q => (q.index, q.content, String.ofList q.ylabel, String.ofList q.title)) =
      .ok [(1, [(1, 2), (7, 8)], "b", "a"), (3, [(1, 3), (7, 9)], "$p_{2}$", ""),
        (4, [(2, 3), (8, 9)], "", "b")] := by
  refine ⟨by simp [panelChains], by decide, by decide, by decide +kernel⟩

/-! ### C90: the grid of the density plots -/

theorem foldl_min_spec {K : Type} [LinearOrder K] (l : List K) : ∀ a : K, (∀ v ∈ a :: l, l.foldl min a ≤ v) ∧
    l.foldl min a ∈ a :: l := by
  induction l with
  | nil => intro a; simp
  | cons b l ih =>
    intro a
    obtain ⟨h1, h2⟩ := ih (min a b)
    rw [List.foldl_cons]
    have hm := h1 _ List.mem_cons_self
    refine ⟨fun v hv => ?_, ?_⟩
    · simp only [List.mem_cons] at hv
      rcases hv with rfl | rfl | hv
      · exact hm.trans (min_le_left _ _)
      · exact hm.trans (min_le_right _ _)
      · exact h1 v (List.mem_cons_of_mem _ hv)
    · rcases List.mem_cons.1 h2 with h | h
      · rcases min_choice a b with e | e
        · rw [h, e]; simp
        · rw [h, e]; simp
      · exact List.mem_cons_of_mem _ (List.mem_cons_of_mem _ h)

theorem foldl_max_spec {K : Type} [LinearOrder K] (l : List K) : ∀ a : K, (∀ v ∈ a :: l, v ≤ l.foldl max a) ∧
    l.foldl max a ∈ a :: l := by
  induction l with
  | nil => intro a; simp
  | cons b l ih =>
    intro a
    obtain ⟨h1, h2⟩ := ih (max a b)
    rw [List.foldl_cons]
    have hm := h1 _ List.mem_cons_self
    refine ⟨fun v hv => ?_, ?_⟩
    · simp only [List.mem_cons] at hv
      rcases hv with rfl | rfl | hv
      · exact (le_max_left _ _).trans hm
      · exact (le_max_right _ _).trans hm
      · exact h1 v (List.mem_cons_of_mem _ hv)
    · rcases List.mem_cons.1 h2 with h | h
      · rcases max_choice a b with e | e
        · rw [h, e]; simp
        · rw [h, e]; simp
      · exact List.mem_cons_of_mem _ (List.mem_cons_of_mem _ h)

/-- `grid` are `npts` equally spaced points from `a` to `b` -/
def EvenGrid (grid : List (Option ℝ)) (npts : ℕ) (a b : ℝ) : Prop :=
  ∃ h : ℝ, a + ((npts : ℝ) - 1) * h = b ∧
    grid = (List.range npts).map fun i : ℕ => some (a + i * h)

theorem linspace_even (a b : ℝ) {npts : ℕ} (hn : 2 ≤ npts) :
    EvenGrid (linspace (some a) (some b) npts) npts a b := by
  have : (2 : ℝ) ≤ npts := by exact_mod_cast hn
  refine ⟨(b - a) / ((npts : ℝ) - 1), ?_, ?_⟩
  · rw [mul_div_cancel₀ _ (by linarith)]; ring
  · unfold linspace
    simp [show ¬ npts ≤ 1 by omega]

/-- **C90, full statement:** the grid on which a density is plotted covers the sample: its points
are equally spaced and every value of the sample lies between the first and the last.
**Proved here** for samples of more than 200 values, where the grid reaches beyond the extreme
values by 8 % of the range on both sides.  For smaller samples see `C90_small_partial` and
`C90_outlier_refuted`. -/
theorem C90_large_partial {x : List ℝ} (hx : 200 < x.length) {npts : ℕ} (hn : 2 ≤ npts) :
    ∃ grid, ∃ lo ∈ x, ∃ hi ∈ x, makeXGrid x npts = .ok grid ∧ (∀ v ∈ x, lo ≤ v ∧ v ≤ hi) ∧
      EvenGrid grid npts (lo - 8 / 100 * (hi - lo)) (hi + 8 / 100 * (hi - lo)) := by
  cases x with
  | nil => simp at hx
  | cons a l =>
    obtain ⟨h1, h2⟩ := foldl_min_spec l a
    obtain ⟨h3, h4⟩ := foldl_max_spec l a
    refine ⟨_, _, h2, _, h4, ?_, fun v hv => ⟨h1 v hv, h3 v hv⟩, linspace_even _ _ hn⟩
    unfold makeXGrid
    dsimp only
    rw [if_pos hx]

theorem sq_sum_le (l : List ℝ) : l.sum ^ 2 ≤ l.length * (l.map fun v => v ^ 2).sum := by
  induction l with
  | nil => simp
  | cons a l ih =>
    simp only [List.sum_cons, List.length_cons, List.map_cons, Nat.cast_add, Nat.cast_one]
    rcases Nat.eq_zero_or_pos l.length with h | h
    · rw [List.length_eq_zero_iff.1 h]; simp
    · have hpos : (0 : ℝ) < l.length := by exact_mod_cast h
      generalize l.sum = s at *
      generalize (l.map fun v => v ^ 2).sum = q at *
      generalize (l.length : ℝ) = n at *
      have : 0 ≤ n * (n * a ^ 2 + q - 2 * a * s) := by nlinarith [sq_nonneg (n * a - s)]
      have := nonneg_of_mul_nonneg_right this hpos
      nlinarith

theorem sum_sub_const (l : List ℝ) (m : ℝ) : (l.map fun w => w - m).sum = l.sum - l.length * m := by
  induction l with
  | nil => simp
  | cons a l ih => simp only [List.map_cons, List.sum_cons, ih, List.length_cons]; push_cast; ring

/-- no value is further from the mean than `(n - 1)/√n` sample standard deviations -/
theorem deviation_le {x : List ℝ} (hx : 2 ≤ x.length) {v : ℝ} (hv : v ∈ x) {s : ℝ}
    (hs : stdOf x = some s) :
    (x.length : ℝ) * (v - meanOf x) ^ 2 ≤ ((x.length : ℝ) - 1) ^ 2 * s ^ 2 := by
  have hn : (2 : ℝ) ≤ x.length := by exact_mod_cast hx
  have hsum : (x.map fun w => w - meanOf x).sum = 0 := by
    rw [sum_sub_const, meanOf, mul_div_cancel₀ _ (by linarith), sub_self]
  have hS : ((x.length : ℝ) - 1) * s ^ 2 = (x.map fun w => (w - meanOf x) ^ 2).sum := by
    unfold stdOf at hs
    rw [if_neg (by omega)] at hs
    cases hs
    rw [Real.sq_sqrt, mul_div_cancel₀ _ (by linarith)]
    apply div_nonneg _ (by linarith)
    apply List.sum_nonneg
    intro w hw
    obtain ⟨u, -, rfl⟩ := List.mem_map.1 hw
    positivity
  generalize meanOf x = m at *
  obtain ⟨l, hl⟩ : ∃ l, x.Perm (v :: l) := ⟨x.erase v, List.perm_cons_erase hv⟩
  have h1 := (hl.map fun w => w - m).sum_eq
  have h2 := (hl.map fun w => (w - m) ^ 2).sum_eq
  have h3 := sq_sum_le (l.map fun w => w - m)
  have hlen := hl.length_eq
  rw [List.length_cons] at hlen
  rw [hsum, List.map_cons, List.sum_cons] at h1
  rw [List.map_cons, List.sum_cons, ← hS] at h2
  rw [List.length_map, List.map_map] at h3
  simp only [Function.comp_def] at h3
  have hll : (l.length : ℝ) = x.length - 1 := by rw [hlen]; push_cast; ring
  rw [hll] at h3
  have e1 : (l.map fun w => w - m).sum = -(v - m) := by linarith
  have e2 : (l.map fun w => (w - m) ^ 2).sum = ((x.length : ℝ) - 1) * s ^ 2 - (v - m) ^ 2 := by
    linarith
  rw [e1, e2] at h3
  nlinarith

/-- **C90, full statement:** see `C90_large_partial`.  **Proved here** for samples of 2 to 17
values, where the grid covers the mean plus and minus four sample standard deviations. -/
theorem C90_small_partial {x : List ℝ} (h2 : 2 ≤ x.length) (h17 : x.length ≤ 17) {npts : ℕ}
    (hn : 2 ≤ npts) :
    ∃ grid a b, makeXGrid x npts = .ok grid ∧ EvenGrid grid npts a b ∧ ∀ v ∈ x, a ≤ v ∧ v ≤ b := by
  obtain ⟨s, hs, hs0⟩ : ∃ s, stdOf x = some s ∧ 0 ≤ s := by
    unfold stdOf
    rw [if_neg (by omega)]
    exact ⟨_, rfl, Real.sqrt_nonneg _⟩
  refine ⟨_, meanOf x - 4 * s, meanOf x + 4 * s, ?_, linspace_even _ _ hn, fun v hv => ?_⟩
  · cases x with
    | nil => simp at h2
    | cons a l =>
      unfold makeXGrid
      dsimp only
      rw [if_neg (by omega), hs]
      rfl
  · have hd := deviation_le h2 hv hs
    have hn2 : (2 : ℝ) ≤ x.length := by exact_mod_cast h2
    have hn17 : (x.length : ℝ) ≤ 17 := by exact_mod_cast h17
    have h16 : ((x.length : ℝ) - 1) ^ 2 ≤ 16 * x.length := by nlinarith
    have : (x.length : ℝ) * (v - meanOf x) ^ 2 ≤ x.length * (4 * s) ^ 2 := by
      nlinarith [mul_le_mul_of_nonneg_right h16 (sq_nonneg s)]
    have := le_of_mul_le_mul_left this (by linarith)
    have := abs_le.1 (abs_le_of_sq_le_sq this (by linarith))
    constructor <;> linarith

/-- **Refutation of C90:** for every size from 18 to 200 there is a sample with a value beyond the
end of the grid: one value 1 and otherwise 0. -/
theorem C90_outlier_refuted {n : ℕ} (h18 : 18 ≤ n) (h200 : n ≤ 200) {npts : ℕ} (hn : 2 ≤ npts) :
    ∃ x : List ℝ, x.length = n ∧ ∃ grid a b, makeXGrid x npts = .ok grid ∧ EvenGrid grid npts a b ∧
      ∃ v ∈ x, b < v := by
  have hr : (18 : ℝ) ≤ n := by exact_mod_cast h18
  have hc : ((n - 1 : ℕ) : ℝ) = (n : ℝ) - 1 := by rw [Nat.cast_sub (by omega)]; simp
  let x : List ℝ := 1 :: List.replicate (n - 1) 0
  have hl : x.length = n := by simp [x]; omega
  have hm : meanOf x = 1 / n := by
    unfold meanOf; rw [hl]; simp [x]
  have hs : stdOf x = some (Real.sqrt (1 / n)) := by
    unfold stdOf
    rw [if_neg (by omega), hm, hl]
    simp only [x, List.map_cons, List.map_replicate, List.sum_cons, List.sum_replicate,
      nsmul_eq_mul, hc]
    congr 2
    have : (n : ℝ) - 1 ≠ 0 := by linarith
    field_simp
    ring
  refine ⟨x, hl, _, meanOf x - 4 * Real.sqrt (1 / n), meanOf x + 4 * Real.sqrt (1 / n), ?_,
    linspace_even _ _ hn, 1, by simp [x], ?_⟩
  · show makeXGrid (1 :: List.replicate (n - 1) 0) npts = _
    unfold makeXGrid
    dsimp only
    have : ¬ 200 < (1 :: List.replicate (n - 1) (0 : ℝ)).length := by
      have := hl; simp only [x] at this; omega
    rw [if_neg this]
    have hs' : stdOf (1 :: List.replicate (n - 1) 0) = some (Real.sqrt (1 / n)) := hs
    rw [hs']
    rfl
  · rw [hm]
    have hpos : (0 : ℝ) < 1 / n := by positivity
    have hlt : Real.sqrt (1 / n) < (1 - 1 / n) / 4 := by
      rw [Real.sqrt_lt' (by have : (1 : ℝ) / n ≤ 1 / 18 := by gcongr
                            linarith)]
      have h0 : (0 : ℝ) < n := by linarith
      rw [div_pow, lt_div_iff₀ (by norm_num)]
      have e : (1 - 1 / (n : ℝ)) ^ 2 = (n - 1) ^ 2 / n ^ 2 := by field_simp
      rw [e, lt_div_iff₀ (by positivity)]
      field_simp
      nlinarith
    linarith

/-- **Refutation of C90:** the grid of a single value consists of NaN. -/
theorem C90_single_refuted (v : ℝ) (npts : ℕ) :
    makeXGrid [v] npts = .ok (List.replicate npts none) := by
  unfold makeXGrid
  simp only [List.length_cons, List.length_nil, linspace, stdOf]
  rw [if_neg (by norm_num)]
  simp

/-- the hypotheses of the C90 theorems hold for a sample of 201 values, of 3 values and for sizes
such as 18 and 200 -/
example : 200 < ((List.range 201).map fun i : ℕ => (i : ℝ)).length ∧
    (2 ≤ ([1, 2, 5] : List ℝ).length ∧ ([1, 2, 5] : List ℝ).length ≤ 17) ∧
    (18 ≤ 18 ∧ 18 ≤ 200) := by simp

/-! ### C91: normal density and bandwidth -/

/-- **C91.** For every mean and every positive variance `gaussian_density_function` is a positive
probability density with this mean and this variance. -/
theorem C91_density (mu : ℝ) {sigma2 : ℝ} (h : 0 < sigma2) :
    ∃ f : ℝ → ℝ, (∀ x, gaussianDensity x mu sigma2 = .ok (f x)) ∧ (∀ x, 0 < f x) ∧
      ∫ x, f x = 1 ∧ ∫ x, x * f x = mu ∧ ∫ x, (x - mu) ^ 2 * f x = sigma2 := by
  have hpos : 0 < 2 * Real.pi * sigma2 := by positivity
  let v : NNReal := ⟨sigma2, h.le⟩
  have hv : v ≠ 0 := fun e => h.ne' (congrArg NNReal.toReal e)
  have hf : ∀ x, 1 / Real.sqrt (2 * Real.pi * sigma2) *
      Real.exp (-(1 / 2) * (x - mu) ^ 2 / sigma2) = ProbabilityTheory.gaussianPDFReal mu v x := by
    intro x
    unfold ProbabilityTheory.gaussianPDFReal
    rw [one_div]
    congr 2
    show _ = -(x - mu) ^ 2 / (2 * sigma2)
    field_simp
  refine ⟨ProbabilityTheory.gaussianPDFReal mu v, fun x => ?_, fun x =>
    ProbabilityTheory.gaussianPDFReal_pos mu v x hv,
    ProbabilityTheory.integral_gaussianPDFReal_eq_one mu hv, ?_, ?_⟩
  · unfold gaussianDensity
    rw [if_neg (by linarith), if_neg (Real.sqrt_ne_zero'.2 hpos), hf]
  · have := ProbabilityTheory.integral_id_gaussianReal (μ := mu) (v := v)
    rw [ProbabilityTheory.integral_gaussianReal_eq_integral_smul hv] at this
    simpa [mul_comm] using this
  · have := ProbabilityTheory.variance_id_gaussianReal (μ := mu) (v := v)
    rw [ProbabilityTheory.variance_eq_integral aemeasurable_id] at this
    simp only [id] at this
    rw [ProbabilityTheory.integral_id_gaussianReal,
      ProbabilityTheory.integral_gaussianReal_eq_integral_smul hv] at this
    have hvs : (v : ℝ) = sigma2 := rfl
    rw [hvs] at this
    simpa [mul_comm] using this

/-- **C91.** A variance that is not positive raises. -/
theorem C91_raises (x mu : ℝ) {sigma2 : ℝ} :
    (sigma2 < 0 → gaussianDensity x mu sigma2 = .error .valueError) ∧
    (sigma2 = 0 → gaussianDensity x mu sigma2 = .error .zeroDivision) := by
  have hpi := Real.pi_pos
  unfold gaussianDensity
  constructor
  · intro h
    rw [if_pos (mul_neg_of_pos_of_neg (by positivity) h)]
  · rintro rfl
    simp

/-- the bandwidth of the normal reference rule computed from the standard deviation alone -/
noncomputable def referenceBandwidth (x : List ℝ) : ℝ :=
  106 / 100 * (Real.sqrt ((x.map fun v => (v - x.sum / x.length) ^ 2).sum / ((x.length : ℝ) - 1)) *
    (x.length : ℝ) ^ (-(1 / 5) : ℝ))

/-- **C91, full statement:** the bandwidth lies between 0 and the normal reference rule, is
positive when the values are not all equal, and does not depend on the order of the values.
**Proved here:** all but the last, for eight values or more (fewer raise, see
`C56_small_refuted`); see `C91_order_refuted`. -/
theorem C91_bandwidth_partial {x : List ℝ} (h : 8 ≤ x.length) :
    ∃ b, scaleBandwidth x = .ok b ∧ 0 ≤ b ∧ b ≤ referenceBandwidth x ∧
      ((∃ v ∈ x, ∃ w ∈ x, v ≠ w) → 0 < b) := by
  obtain ⟨q, hq⟩ : ∃ q, iqrange x = .ok q := by
    obtain ⟨h1, h3, hq⟩ := iqrange_of_lt h
    exact ⟨_, hq⟩
  have hn : (8 : ℝ) ≤ x.length := by exact_mod_cast h
  set s : ℝ := Real.sqrt ((x.map fun v => (v - x.sum / x.length) ^ 2).sum / ((x.length : ℝ) - 1))
    with hsd
  have hs : stdOf x = some s := by
    unfold stdOf meanOf
    rw [if_neg (by omega)]
  have hs0 : 0 ≤ s := Real.sqrt_nonneg _
  have hpow : 0 < (x.length : ℝ) ^ (-(1 / 5) : ℝ) := Real.rpow_pos_of_pos (by linarith) _
  have hspos : (∃ v ∈ x, ∃ w ∈ x, v ≠ w) → 0 < s := by
    rintro ⟨v, hv, w, hw, hvw⟩
    rcases hs0.lt_or_eq with h0 | h0
    · exact h0
    · exfalso
      have d1 := deviation_le (by omega) hv hs
      have d2 := deviation_le (by omega) hw hs
      rw [← h0] at d1 d2
      have e1 : v - meanOf x = 0 := by
        have : (v - meanOf x) ^ 2 ≤ 0 := by nlinarith [sq_nonneg (v - meanOf x)]
        exact pow_eq_zero_iff (two_ne_zero) |>.1 (le_antisymm this (sq_nonneg _))
      have e2 : w - meanOf x = 0 := by
        have : (w - meanOf x) ^ 2 ≤ 0 := by nlinarith [sq_nonneg (w - meanOf x)]
        exact pow_eq_zero_iff (two_ne_zero) |>.1 (le_antisymm this (sq_nonneg _))
      exact hvw (by linarith)
  have href : referenceBandwidth x = 106 / 100 * (s * (x.length : ℝ) ^ (-(1 / 5) : ℝ)) := rfl
  rw [href]
  unfold scaleBandwidth
  rw [hq, ok_bind, hs]
  simp only [orRaise, ok_bind]
  by_cases hq0 : q ≤ 0
  · rw [if_pos hq0]
    exact ⟨_, rfl, by positivity, le_refl _, fun hne => by have := hspos hne; positivity⟩
  · rw [if_neg hq0]
    have hq1 : 0 < q / (134 / 100) := by push Not at hq0; positivity
    refine ⟨_, rfl, ?_, ?_, fun hne => ?_⟩
    · have : 0 ≤ min s (q / (134 / 100)) := le_min hs0 hq1.le
      positivity
    · have := min_le_left s (q / (134 / 100))
      gcongr
    · have : 0 < min s (q / (134 / 100)) := lt_min (hspos hne) hq1
      positivity

/-- **Refutation of the last part of C91:** the same twelve values in increasing and in decreasing
order have different bandwidths. -/
theorem C91_order_refuted :
    ∃ x y : List ℝ, x.Perm y ∧ ∃ b b', scaleBandwidth x = .ok b ∧ scaleBandwidth y = .ok b' ∧
      b < b' := by
  let x : List ℝ := [0, 0, 0, 0, 0, 0, 1, 1, 1, 1, 1, 100]
  have hx : iqrange x = .ok 1 := by
    simp only [iqrange, x, List.length_cons, List.length_nil]
    norm_num [pyGet, bind, Except.bind]
  have hy : iqrange x.reverse = .ok (-1) := by
    simp only [iqrange, x, List.length_reverse, List.length_cons, List.length_nil]
    norm_num [pyGet, bind, Except.bind]
  have hsx : ∃ s, stdOf x = some s ∧ 1 < s := by
    simp only [stdOf, meanOf, x, List.length_cons, List.length_nil]
    rw [if_neg (by norm_num)]
    refine ⟨_, rfl, ?_⟩
    rw [Real.lt_sqrt (by norm_num)]
    norm_num
  have hsy : stdOf x.reverse = stdOf x := by
    unfold stdOf meanOf
    rw [List.length_reverse, List.sum_reverse, List.map_reverse, List.sum_reverse]
  obtain ⟨s, hs, hs1⟩ := hsx
  have hpow : 0 < (x.length : ℝ) ^ (-(1 / 5) : ℝ) := Real.rpow_pos_of_pos (by simp [x]) _
  have e1 : scaleBandwidth x =
      .ok (106 / 100 * (min s (1 / (134 / 100)) * (x.length : ℝ) ^ (-(1 / 5) : ℝ))) := by
    unfold scaleBandwidth
    rw [hx, ok_bind, hs]
    simp only [orRaise, ok_bind]
    rw [if_neg (by norm_num)]
  have e2 : scaleBandwidth x.reverse = .ok (106 / 100 * (s * (x.length : ℝ) ^ (-(1 / 5) : ℝ))) := by
    unfold scaleBandwidth
    rw [hy, ok_bind, hsy, hs, List.length_reverse]
    simp only [orRaise, ok_bind]
    rw [if_pos (by norm_num)]
  refine ⟨x, x.reverse, (List.reverse_perm x).symm, _, _, e1, e2, ?_⟩
  have : min s (1 / (134 / 100)) < s := (min_le_right _ _).trans_lt (by norm_num; linarith)
  gcongr

/-- the hypotheses of the C91 theorems hold for variance 4 and for the values 0, …, 9 -/
example : (0 : ℝ) < 4 ∧ (8 ≤ ((List.range 10).map fun i : ℕ => (i : ℝ)).length) ∧
    ∃ v ∈ (List.range 10).map fun i : ℕ => (i : ℝ), ∃ w ∈ (List.range 10).map fun i : ℕ => (i : ℝ),
      v ≠ w := by
  refine ⟨by norm_num, by simp, 0, ?_, 1, ?_, by norm_num⟩
  · exact List.mem_map.2 ⟨0, by simp, by simp⟩
  · exact List.mem_map.2 ⟨1, by simp, by simp⟩

end Verif
