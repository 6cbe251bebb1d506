import Verif.Model.PredictionPlots
import Verif.Props.Intervals
import Verif.Props.ParallelLoad

/-! # C119: plots of the class `PredictionIntervals` -/

set_option linter.unusedSectionVars false

namespace Verif

/-! ### Axes -/

section
variable {K : Type}

theorem foldl_paint : ∀ (l : List (AxesName × List (Painted K))) (cv : Canvas K), (l.map Prod.fst).Nodup →
    (∀ k c, (k, c) ∈ l → l.foldl paint cv k = cv k ++ c) ∧ ∀ k, k ∉ l.map Prod.fst → l.foldl paint cv k = cv k := by
  intro l
  induction l with
  | nil => intro cv _; exact ⟨by simp, by simp⟩
  | cons a l ih =>
    intro cv h
    rw [List.map_cons, List.nodup_cons] at h
    obtain ⟨h1, h2⟩ := ih (paint cv a) h.2
    refine ⟨fun k c hkc => ?_, fun k hk => ?_⟩
    · rw [List.foldl_cons]
      rcases List.mem_cons.1 hkc with rfl | hkc
      · rw [h2 _ h.1]
        simp [paint]
      · rw [h1 k c hkc]
        have : k ≠ a.1 := fun e => h.1 (e ▸ List.mem_map_of_mem (f := Prod.fst) hkc)
        simp [paint, this]
    · rw [List.map_cons, List.mem_cons, not_or] at hk
      rw [List.foldl_cons, h2 k hk.2]
      simp [paint, hk.1]

/-- the axes of the plot: one for every column of every data set -/
def allAxes (ncols : List ℕ) : List AxesName :=
  (List.range ncols.length).flatMap fun ii =>
    (List.range (ncols.getD ii 0)).map fun jj => ((ii, jj), ncols.getD ii 0, jj + 1)

theorem allAxes_nodup (ncols : List ℕ) : (allAxes ncols).Nodup := by
  refine List.nodup_flatMap.2 ⟨fun ii _ => ?_, ?_⟩
  · exact List.Nodup.map (fun a b h => by simpa using h) List.nodup_range
  · refine (List.nodup_range (n := ncols.length)).imp fun {a b} hab => ?_
    change List.Disjoint _ _
    intro x h1 h2
    obtain ⟨j, -, rfl⟩ := List.mem_map.1 h1
    obtain ⟨j', -, h⟩ := List.mem_map.1 h2
    exact hab (by simpa using (congrArg (fun x : AxesName => x.1.1) h).symm)

theorem paintBatches_ok {cred : List (List (List (List K)))} {pred : Option (List (List (List (List K))))} {nn : ℕ}
    {labels : List ℕ × List ℕ} {colours : List String × List String} {data : List (PlotData K)} {adddata : Bool}
    {panels : List (List (AxesName × List (Painted K)))} (hl : cred.length = data.length)
    (h : paintBatches cred pred nn labels colours data adddata = .ok panels) :
    panels.flatten.map Prod.fst = allAxes (cred.map List.length) ∧
    ∀ (ii jj : ℕ) d cols lines, data[ii]? = some d → cred[ii]? = some cols → cols[jj]? = some lines →
      ∃ time cont, d.time = .ok time ∧
        paintColumn pred nn labels colours cred.length d adddata ii time cols jj = .ok cont ∧ cont ∈ panels.flatten := by
  unfold paintBatches at h
  obtain ⟨h1, h2⟩ := mapM_ok_iff.1 h
  rw [List.length_range] at h1
  have key : ∀ ii cols, cred[ii]? = some cols → ∃ d time row, data[ii]? = some d ∧ d.time = .ok time ∧
      panels[ii]? = some row ∧ row.length = cols.length ∧
      ∀ jj, jj < cols.length → ∃ b,
        paintColumn pred nn labels colours cred.length d adddata ii time cols jj = .ok b ∧ row[jj]? = some b := by
    intro ii cols hc
    have hii : ii < data.length := by rw [← hl]; exact (List.getElem?_eq_some_iff.1 hc).1
    obtain ⟨row, hr, hrow⟩ := h2 ii ii (List.getElem?_range hii)
    obtain ⟨cols', hc', hr⟩ := bind_ok.1 hr
    rw [pyGet_ok.1 hc'] at hc
    cases hc
    obtain ⟨d, hd, hr⟩ := bind_ok.1 hr
    obtain ⟨time, ht, hr⟩ := bind_ok.1 hr
    obtain ⟨g1, g2⟩ := mapM_ok_iff.1 hr
    rw [List.length_range] at g1
    exact ⟨d, time, row, pyGet_ok.1 hd, ht, hrow, g1, fun jj hj => g2 jj jj (List.getElem?_range hj)⟩
  have keyof : ∀ {d time ii jj cols b},
      paintColumn pred nn labels colours cred.length d adddata ii time cols jj = .ok b →
      b.1 = ((ii, jj), cols.length, jj + 1) := by
    intro d time ii jj cols b hb
    unfold paintColumn at hb
    obtain ⟨_, -, hb⟩ := bind_ok.1 hb
    obtain ⟨_, -, hb⟩ := bind_ok.1 hb
    obtain ⟨_, -, hb⟩ := bind_ok.1 hb
    obtain ⟨_, -, hb⟩ := bind_ok.1 hb
    obtain ⟨_, -, hb⟩ := bind_ok.1 hb
    obtain ⟨_, -, hb⟩ := bind_ok.1 hb
    cases hb
    rfl
  constructor
  · unfold allAxes
    rw [List.map_flatten, List.flatMap_def]
    congr 1
    apply List.ext_getElem?
    intro ii
    rw [List.getElem?_map, List.getElem?_map]
    by_cases hii : ii < cred.length
    · obtain ⟨d, time, row, -, -, hrow, hrl, hr⟩ := key ii _ (List.getElem?_eq_getElem hii)
      rw [hrow, List.getElem?_range (by simpa using hii)]
      simp only [Option.map_some]
      congr 1
      have hg : (cred.map List.length).getD ii 0 = cred[ii].length := by
        rw [List.getD_eq_getElem?_getD, List.getElem?_map, List.getElem?_eq_getElem hii]; rfl
      rw [hg]
      apply List.ext_getElem?
      intro jj
      rw [List.getElem?_map, List.getElem?_map]
      by_cases hj : jj < cred[ii].length
      · obtain ⟨b, hb, hbr⟩ := hr jj hj
        rw [hbr, List.getElem?_range hj]
        simp only [Option.map_some]
        rw [keyof hb]
      · rw [List.getElem?_eq_none (by omega), List.getElem?_eq_none (by simp; omega)]
        rfl
    · rw [List.getElem?_eq_none (by omega), List.getElem?_eq_none (by simp; omega)]
      rfl
  · intro ii jj d cols lines hd hc hcl
    obtain ⟨d', time, row, hd', ht, hrow, hrl, hr⟩ := key ii cols hc
    rw [hd] at hd'
    cases hd'
    obtain ⟨b, hb, hbr⟩ := hr jj (List.getElem?_eq_some_iff.1 hcl).1
    exact ⟨time, b, ht, hb, List.mem_flatten.2 ⟨row, List.mem_of_getElem? hrow, List.mem_of_getElem? hbr⟩⟩

end


/-! ### What is shown -/

section
variable {K D : Type} [Field K] [LinearOrder K] [IsStrictOrderedRing K] [FloorRing K] {N p : ℕ}

/-- `time` is the only column of the independent data -/
def PlotData.IsTime (d : PlotData K) (time : List K) : Prop :=
  time.length = d.nx ∧ ∀ (i : Fin d.nx), ∃ hc : d.cx = 1, time[(i : ℕ)]? = some (d.x i ⟨0, by omega⟩)

/-- `P` is a band over `time` with this label; it lies between two of the curves `lines`, whose levels have mean 1/2 and
differ by the percentage in the label, except for the label 90 -/
def ShowsBand (kind : IntKind) (pred : Bool) (lines : List (List K)) (time : List K) (label : ℕ) (P : Painted K) :
    Prop :=
  ∃ (colour : String) (lo hi : List K) (a b : ℕ) (la lb : K), P = .band kind label colour time lo hi ∧
    lines[a]? = some lo ∧ lines[b]? = some hi ∧
    (levels pred : List K)[a]? = some la ∧ (levels pred : List K)[b]? = some lb ∧
    lo.length = time.length ∧ hi.length = time.length ∧
    ((label = 90 ∧ la = 5 / 100 ∧ lb = 9 / 10) ∨ (la + lb = 1 ∧ lb - la = (label : K) / 100))

/-- the colour of a band -/
def Painted.colour : Painted K → Option String
  | .band _ _ c _ _ _ => some c
  | _ => none

theorem time_isTime {d : PlotData K} {time : List K} (h : d.time = .ok time) : d.IsTime time := by
  unfold PlotData.time at h
  split at h
  · rename_i hs
    cases h
    by_cases h0 : d.nx = 0
    · refine ⟨?_, fun i => absurd i.2 (by omega)⟩
      rw [List.length_flatten, List.map_ofFn]
      have : (List.ofFn (List.length ∘ fun i => List.ofFn (d.x i))) = [] := by
        rw [List.ofFn_eq_nil_iff]; exact h0
      rw [this, h0]; rfl
    · have hc : d.cx = 1 := by
        have : d.nx * d.cx = d.nx * 1 := by omega
        exact Nat.eq_of_mul_eq_mul_left (by omega) this
      obtain ⟨nx, cx, x, ny, cy, y⟩ := d
      simp only at hc h0
      subst hc
      have he : (List.ofFn fun i => List.ofFn (x i)).flatten = List.ofFn fun i => x i 0 := by
        have : (fun i => List.ofFn (x i)) = fun i => [x i 0] := by funext i; simp
        rw [this, show (List.ofFn fun i => [x i 0]) = (List.ofFn fun i => x i 0).map fun v => [v] by
          rw [List.map_ofFn]; rfl]
        induction (List.ofFn fun i => x i 0) with
        | nil => rfl
        | cons a l ih => simp [ih]
      refine ⟨by simp only [he, List.length_ofFn], fun i => ⟨rfl, ?_⟩⟩
      simp only [he]
      rw [List.getElem?_ofFn, dif_pos i.2]
      rfl
  · cases h

theorem sameLength_ok {a b : ℕ} {u : Unit} (h : sameLength a b = .ok u) : a = b := by
  unfold sameLength at h
  split at h
  · assumption
  · cases h

theorem fillBetween_ok {kind : IntKind} {label : ℕ} {colour : String} {time lo hi : List K} {P : Painted K}
    (h : fillBetween kind label colour time lo hi = .ok P) :
    P = .band kind label colour time lo hi ∧ lo.length = time.length ∧ hi.length = time.length := by
  unfold fillBetween at h
  obtain ⟨_, h1, h⟩ := bind_ok.1 h
  obtain ⟨_, h2, h⟩ := bind_ok.1 h
  cases h
  exact ⟨rfl, (sameLength_ok h1).symm, (sameLength_ok h2).symm⟩

theorem paintCred_entry {nn : ℕ} {clabels : List ℕ} {cicolor : List String} {lines : List (List K)} {time : List K}
    {cis : List (Painted K)} (h : paintCred nn clabels cicolor lines time = .ok cis) :
    cis.length = nn - 1 ∧ ∀ kk, kk < nn - 1 → ∃ lo hi colour label, lines[kk]? = some lo ∧
      lines[lines.length - 1 - kk]? = some hi ∧ cicolor[kk]? = some colour ∧ clabels[kk]? = some label ∧
      cis[kk]? = some (.band .ci label colour time lo hi) ∧ lo.length = time.length ∧ hi.length = time.length := by
  unfold paintCred at h
  obtain ⟨h1, h2⟩ := mapM_ok_iff.1 h
  rw [List.length_range] at h1
  refine ⟨h1, fun kk hk => ?_⟩
  obtain ⟨P, hP, hc⟩ := h2 kk kk (List.getElem?_range hk)
  obtain ⟨lo, hlo, hP⟩ := bind_ok.1 hP
  obtain ⟨hi, hhi, hP⟩ := bind_ok.1 hP
  obtain ⟨colour, hcol, hP⟩ := bind_ok.1 hP
  obtain ⟨label, hlab, hP⟩ := bind_ok.1 hP
  obtain ⟨rfl, e1, e2⟩ := fillBetween_ok hP
  have hlo' := pyGet_ok.1 hlo
  have hlt := (List.getElem?_eq_some_iff.1 hlo').1
  refine ⟨lo, hi, colour, label, hlo', ?_, pyGet_ok.1 hcol, pyGet_ok.1 hlab, hc, e1, e2⟩
  unfold pyRow at hhi
  rw [if_neg (by omega), if_pos (by omega)] at hhi
  rw [← pyGet_ok.1 hhi]
  congr 1
  omega

theorem four_bands {lines : List (List K)} (hl : lines.length = 9) {time : List K} {cis : List (Painted K)}
    {colours : List String} (h : paintCred 5 [99, 95, 90, 50] colours lines time = .ok cis) :
    List.Forall₂ (ShowsBand .ci false lines time) [99, 95, 90, 50] cis ∧ cis.map Painted.colour =
      (colours.take 4).map some := by
  obtain ⟨h1, h2⟩ := paintCred_entry h
  match cis, h1 with
  | [c0, c1, c2, c3], _ =>
    obtain ⟨lo0, hi0, k0, l0, a0, b0, d0, e0, f0, g0, g0'⟩ := h2 0 (by norm_num)
    obtain ⟨lo1, hi1, k1, l1, a1, b1, d1, e1, f1, g1, g1'⟩ := h2 1 (by norm_num)
    obtain ⟨lo2, hi2, k2, l2, a2, b2, d2, e2, f2, g2, g2'⟩ := h2 2 (by norm_num)
    obtain ⟨lo3, hi3, k3, l3, a3, b3, d3, e3, f3, g3, g3'⟩ := h2 3 (by norm_num)
    rw [hl] at b0 b1 b2 b3
    cases e0; cases e1; cases e2; cases e3
    cases f0; cases f1; cases f2; cases f3
    refine ⟨.cons ⟨k0, lo0, hi0, 0, 8, _, _, rfl, a0, b0, rfl, rfl, g0, g0', .inr ?_⟩
      (.cons ⟨k1, lo1, hi1, 1, 7, _, _, rfl, a1, b1, rfl, rfl, g1, g1', .inr ?_⟩
      (.cons ⟨k2, lo2, hi2, 2, 6, _, _, rfl, a2, b2, rfl, rfl, g2, g2', .inl ?_⟩
      (.cons ⟨k3, lo3, hi3, 3, 5, _, _, rfl, a3, b3, rfl, rfl, g3, g3', .inr ?_⟩ .nil))), ?_⟩
    · norm_num
    · norm_num
    · norm_num
    · norm_num
    · match colours, d0, d1, d2, d3 with
      | k0 :: k1 :: k2 :: k3 :: _, rfl, rfl, rfl, rfl => rfl

theorem one_band {lines : List (List K)} (hl : lines.length = 3) {time : List K} {cis : List (Painted K)}
    {colours : List String} (h : paintCred 2 [95] colours lines time = .ok cis) :
    List.Forall₂ (ShowsBand .ci true lines time) [95] cis ∧ cis.map Painted.colour = (colours.take 1).map some := by
  obtain ⟨h1, h2⟩ := paintCred_entry h
  match cis, h1 with
  | [c0], _ =>
    obtain ⟨lo0, hi0, k0, l0, a0, b0, d0, e0, f0, g0, g0'⟩ := h2 0 (by norm_num)
    rw [hl] at b0
    cases e0
    cases f0
    refine ⟨.cons ⟨k0, lo0, hi0, 0, 2, _, _, rfl, a0, b0, rfl, rfl, g0, g0', .inr ?_⟩ .nil, ?_⟩
    · norm_num
    · match colours, d0 with
      | k0 :: _, rfl => rfl

theorem convertFlag_false {flag : PyFlag} : convertFlag flag = .bool false ↔ flag = .bool false ∨ flag = .str "off" := by
  cases flag with
  | bool b => simp [convertFlag]
  | str s =>
    unfold convertFlag
    by_cases h1 : s = "on"
    · subst h1; simp
    · by_cases h2 : s = "off"
      · subst h2; simp
      · simp [h1, h2]
  | other => simp [convertFlag]

/-- **C119, full statement:** the axes returned for column `jj` of data set `ii` show the intervals of this column
as asked for, and nothing else.
**Proved here:** what a plot adds to the axes; axes that were drawn on before keep what they show, so the full statement
holds for the first plot only (see `C119_second_refuted`).  There are axes for every column of every data set, each
with its own figure, and nothing else is changed.  To the axes of column `jj` of data set `ii` are added, in
this order, over the independent data of the data set:
* the band of 95 % of the prediction intervals of this column, if they were generated and not switched off;
* the credible bands of this column, labelled 95 % if prediction intervals were generated and 99 %,
  95 %, 90 % and 50 % otherwise; their levels are those of the label, except for 90 % (see C46);
* the curve of level 1/2 of this column;
* column `jj` of the observations of this data set, if asked for;
* a title with the numbers that are not evident.
No two bands have the same colour. -/
theorem C119_shown_partial {sqrt exp : K → K} {R : IntResults K N p} (hinj : Function.Injective R.parind)
    {data : List D} {mf : ModelFun D K} {burnin : ℕ} {S : IntSetup K D N p}
    (hs : setupIntervals R data mf burnin = .ok S) {sstype : Option ℤ} {nsample : Option ℕ}
    {flag : PyFlag} {draws : List K} {noise : ℕ → ℕ → ℕ → ℕ → K} {out : IntOut K N}
    (hg : generateIntervals sqrt exp S sstype nsample flag draws noise = .ok out)
    {plotOf : D → PlotData K} {show' : PyFlag} {adddata : Bool} {before after : Canvas K} {axes : List AxesName}
    (hp : plotPredictionIntervals out.credible out.prediction (data.map plotOf) show' adddata before =
      .ok (axes, after)) :
    out.credible.length = data.length ∧ axes.Nodup ∧
    (∀ a, a ∈ axes ↔ ∃ ii jj cols, out.credible[ii]? = some cols ∧ jj < cols.length ∧
      a = ((ii, jj), cols.length, jj + 1)) ∧
    (∀ a, a ∉ axes → after a = before a) ∧
    ∀ (ii jj : ℕ) d cols lines, data[ii]? = some d → out.credible[ii]? = some cols → cols[jj]? = some lines →
      ∃ time med pis cis dat,
        after ((ii, jj), cols.length, jj + 1) = before ((ii, jj), cols.length, jj + 1) ++
          (pis ++ cis ++ [.model time med] ++ dat ++
            if 1 < data.length then [.title (some ii) jj] else if 1 < cols.length then [.title none jj] else []) ∧
        (plotOf d).IsTime time ∧
        (if show' = .bool false ∨ show' = .str "off" then pis = []
          else match out.prediction with
            | none => pis = []
            | some pred => ∃ pcols plines, pred[ii]? = some pcols ∧ pcols[jj]? = some plines ∧
                List.Forall₂ (ShowsBand .pi true plines time) [95] pis) ∧
        List.Forall₂ (ShowsBand .ci out.prediction.isSome lines time)
          (if out.prediction.isSome then [95] else [99, 95, 90, 50]) cis ∧
        ((pis ++ cis).map Painted.colour).Nodup ∧
        (∃ a : ℕ, lines[a]? = some med ∧ (levels out.prediction.isSome : List K)[a]? = some (1 / 2)) ∧
        med.length = time.length ∧
        (if adddata then ∃ ys, dat = [.data time ys] ∧ ys.length = time.length ∧
          ∀ (i : Fin (plotOf d).ny), ∃ hj : jj < (plotOf d).cy, ys[(i : ℕ)]? = some ((plotOf d).y i ⟨jj, hj⟩)
        else dat = []) := by
  obtain ⟨hlen, iis, -, hcred⟩ := C80_credible hinj hs hg
  obtain ⟨hpsome, hpred⟩ := C80_prediction hinj hs hg
  have hlines : ∀ (ii jj : ℕ) cols lines, out.credible[ii]? = some cols → cols[jj]? = some lines →
      lines.length = if out.prediction.isSome then 3 else 9 := by
    intro ii jj cols lines hc hl
    have hii : ii < data.length := by rw [← hlen]; exact (List.getElem?_eq_some_iff.1 hc).1
    obtain ⟨f, y0, cols', -, -, h3, h4, h5⟩ := hcred ii _ (List.getElem?_eq_getElem hii)
    rw [hc] at h3
    cases h3
    obtain ⟨lims, h6, h7⟩ := h5 jj (by rw [← h4]; exact (List.getElem?_eq_some_iff.1 hl).1)
    rw [hl] at h6
    cases h6
    exact (C80_ordered h7).1
  unfold plotPredictionIntervals at hp
  dsimp only at hp
  obtain ⟨cred0, hc0, hp⟩ := bind_ok.1 hp
  obtain ⟨lines0, hl0, hp⟩ := bind_ok.1 hp
  obtain ⟨panels, hpan, hp⟩ := bind_ok.1 hp
  cases hp
  obtain ⟨hkeys, hcont⟩ := paintBatches_ok (by rw [hlen, List.length_map]) hpan
  have hnd : (panels.flatten.map Prod.fst).Nodup := by rw [hkeys]; exact allAxes_nodup _
  obtain ⟨hin, hnotin⟩ := foldl_paint panels.flatten before hnd
  refine ⟨hlen, hnd, fun a => ?_, fun a ha => hnotin a ha, ?_⟩
  · rw [hkeys, allAxes, List.mem_flatMap]
    have hgd : ∀ ii cols, out.credible[ii]? = some cols → (out.credible.map List.length).getD ii 0 = cols.length := by
      intro ii cols h
      rw [List.getD_eq_getElem?_getD, List.getElem?_map, h]; rfl
    constructor
    · rintro ⟨ii, hii, ha⟩
      rw [List.mem_range, List.length_map] at hii
      obtain ⟨jj, hjj, rfl⟩ := List.mem_map.1 ha
      have := hgd ii _ (List.getElem?_eq_getElem hii)
      rw [this, List.mem_range] at hjj
      exact ⟨ii, jj, _, List.getElem?_eq_getElem hii, hjj, by rw [this]⟩
    · rintro ⟨ii, jj, cols, hc, hj, rfl⟩
      have hii := (List.getElem?_eq_some_iff.1 hc).1
      refine ⟨ii, by rw [List.mem_range, List.length_map]; exact hii, List.mem_map.2 ⟨jj, ?_, ?_⟩⟩
      · rw [hgd ii cols hc, List.mem_range]; exact hj
      · rw [hgd ii cols hc]
  intro ii jj d cols lines hd hc hl
  obtain ⟨time, cont, ht, hcol, hmem⟩ := hcont ii jj (plotOf d) cols lines (by rw [List.getElem?_map, hd]; rfl) hc hl
  unfold paintColumn at hcol
  obtain ⟨pis, hpis, hcol⟩ := bind_ok.1 hcol
  obtain ⟨lines', hl', hcol⟩ := bind_ok.1 hcol
  rw [pyGet_ok.1 hl'] at hl
  cases hl
  obtain ⟨cis, hcis, hcol⟩ := bind_ok.1 hcol
  obtain ⟨med, hmed, hcol⟩ := bind_ok.1 hcol
  obtain ⟨_, hmt, hcol⟩ := bind_ok.1 hcol
  obtain ⟨dat, hdat, hcol⟩ := bind_ok.1 hcol
  cases hcol
  have hll := hlines ii jj cols lines hc (pyGet_ok.1 hl')
  have hll0 := hlines 0 0 cred0 lines0 (pyGet_ok.1 hc0) (pyGet_ok.1 hl0)
  have hmed' := pyGet_ok.1 hmed
  refine ⟨time, med, pis, cis, dat, ?_, time_isTime ht, ?_, ?_, ?_, ?_, (sameLength_ok hmt).symm, ?_⟩
  · rw [hin _ _ hmem]
    simp only [batchTitle, hlen]
  · -- prediction band
    by_cases hf : convertFlag show' = .bool false
    · rw [if_pos (convertFlag_false.1 hf)]
      rw [checkPredFlag, if_pos hf] at hpis
      cases hpis
      rfl
    · rw [if_neg fun h => hf (convertFlag_false.2 h)]
      rw [checkPredFlag, if_neg hf] at hpis
      cases ho : out.prediction with
      | none => rw [ho] at hpis; cases hpis; rfl
      | some pred =>
        rw [ho] at hpis
        unfold paintPred at hpis
        obtain ⟨pcols, h1, hpis⟩ := bind_ok.1 hpis
        obtain ⟨plines, h2, hpis⟩ := bind_ok.1 hpis
        obtain ⟨lo, h3, hpis⟩ := bind_ok.1 hpis
        obtain ⟨hi, h4, hpis⟩ := bind_ok.1 hpis
        obtain ⟨colour, h5, hpis⟩ := bind_ok.1 hpis
        obtain ⟨label, h6, hpis⟩ := bind_ok.1 hpis
        obtain ⟨P, h7, hpis⟩ := bind_ok.1 hpis
        cases hpis
        obtain ⟨rfl, e1, e2⟩ := fillBetween_ok h7
        have hlab : label = 95 := by
          have := pyGet_ok.1 h6
          simp only [setupLabels, Option.isSome_some, if_true] at this
          cases this; rfl
        subst hlab
        obtain ⟨⟨n, s2⟩, hs2⟩ := Option.isSome_iff_exists.1 (hpsome.1 (by rw [ho]; rfl)).1
        obtain ⟨-, iis', ncols, -, -, hpr⟩ := hpred n s2 pred hs2 ho
        obtain ⟨f, y0, cols', -, -, -, g1, g2, g3⟩ := hpr ii d hd
        rw [pyGet_ok.1 h1] at g1
        cases g1
        obtain ⟨lims, g4, g5⟩ := g3 jj (by rw [← g2]; exact (List.getElem?_eq_some_iff.1 (pyGet_ok.1 h2)).1)
        rw [pyGet_ok.1 h2] at g4
        cases g4
        have hpl : plines.length = 3 := (C80_ordered g5).1
        refine ⟨pcols, plines, pyGet_ok.1 h1, pyGet_ok.1 h2, .cons
          ⟨colour, lo, hi, 0, 2, _, _, rfl, pyGet_ok.1 h3, ?_, rfl, rfl, e1, e2, .inr ?_⟩ .nil⟩
        · unfold pyRow at h4
          rw [if_neg (by norm_num), if_pos (by rw [hpl]; norm_num), hpl] at h4
          exact pyGet_ok.1 h4
        · norm_num
  · cases ho : out.prediction.isSome with
    | true =>
      rw [ho] at hll hll0
      rw [hll0] at hcis
      simp only [if_true] at hll
      have : setupLabels (checkPredFlag show' out.prediction).isSome (setupCountingMetrics 3).2 = ([95], [95]) := by
        unfold setupLabels setupCountingMetrics; split <;> rfl
      simp only [if_true] at hcis
      rw [this] at hcis
      exact (one_band hll hcis).1
    | false =>
      rw [ho] at hll hll0
      rw [hll0] at hcis
      simp only [Bool.false_eq_true, if_false] at hll hcis ⊢
      have hn : out.prediction = none := by simpa using ho
      have : setupLabels (checkPredFlag show' out.prediction).isSome (setupCountingMetrics 9).2 =
          ([99, 95, 90, 50], [95]) := by
        rw [hn]; unfold checkPredFlag; split <;> rfl
      rw [this] at hcis
      exact (four_bands hll hcis).1
  · have hpc : pis.map Painted.colour =
        if (checkPredFlag show' out.prediction).isSome then [some "#225ea8"] else [] := by
      cases ho : checkPredFlag show' out.prediction with
      | none => rw [ho] at hpis; cases hpis; rfl
      | some pred =>
        rw [ho] at hpis
        unfold paintPred at hpis
        obtain ⟨pcols, -, hpis⟩ := bind_ok.1 hpis
        obtain ⟨plines, -, hpis⟩ := bind_ok.1 hpis
        obtain ⟨lo, -, hpis⟩ := bind_ok.1 hpis
        obtain ⟨hi, -, hpis⟩ := bind_ok.1 hpis
        obtain ⟨colour, h5, hpis⟩ := bind_ok.1 hpis
        obtain ⟨label, -, hpis⟩ := bind_ok.1 hpis
        obtain ⟨P, h7, hpis⟩ := bind_ok.1 hpis
        cases hpis
        obtain ⟨rfl, -, -⟩ := fillBetween_ok h7
        cases h5
        rfl
    rw [List.map_append, hpc]
    cases ho : out.prediction with
    | none =>
      rw [ho] at hll hll0 hcis
      rw [hll0] at hcis
      have hn : checkPredFlag show' (none : Option (List (List (List (List K))))) = none := by
        unfold checkPredFlag; split <;> rfl
      rw [hn] at hcis ⊢
      simp only [Option.isSome_none, Bool.false_eq_true, if_false] at hll hcis ⊢
      have : setupLabels false (setupCountingMetrics 9).2 = ([99, 95, 90, 50], [95]) := rfl
      rw [this] at hcis
      rw [(four_bands hll hcis).2]
      decide
    | some pred =>
      rw [ho] at hll hll0 hcis
      rw [hll0] at hcis
      have : setupLabels (checkPredFlag show' (some pred)).isSome (setupCountingMetrics 3).2 = ([95], [95]) := by
        unfold setupLabels setupCountingMetrics; split <;> rfl
      simp only [Option.isSome_some, if_true] at hcis
      rw [this] at hcis
      rw [(one_band hll hcis).2]
      cases (checkPredFlag show' (some pred)).isSome <;> decide
  · cases ho : out.prediction.isSome with
    | true =>
      rw [ho] at hll0
      rw [hll0] at hmed'
      exact ⟨1, hmed', rfl⟩
    | false =>
      rw [ho] at hll0
      rw [hll0] at hmed'
      exact ⟨4, hmed', rfl⟩
  · unfold paintData at hdat
    split at hdat
    · rename_i ha
      rw [if_pos ha]
      split at hdat
      · rename_i hj
        obtain ⟨_, h1, hdat⟩ := bind_ok.1 hdat
        cases hdat
        have e := sameLength_ok h1
        refine ⟨_, rfl, ?_, fun i => ⟨hj, ?_⟩⟩
        · rw [List.length_ofFn, (time_isTime ht).1]; exact e.symm
        · rw [List.getElem?_ofFn, dif_pos i.2]
      · cases hdat
    · rename_i ha
      rw [if_neg ha]
      cases hdat
      rfl

theorem sameLength_self {a b : ℕ} (h : a = b) : sameLength a b = .ok () := by
  unfold sameLength; rw [if_pos h]

theorem fillBetween_returns {kind : IntKind} {label : ℕ} {colour : String} {time lo hi : List K}
    (h1 : lo.length = time.length) (h2 : hi.length = time.length) :
    fillBetween kind label colour time lo hi = .ok (.band kind label colour time lo hi) := by
  unfold fillBetween
  rw [sameLength_self h1.symm, ok_bind, sameLength_self h2.symm]
  rfl

theorem paintCred_returns {nn : ℕ} {clabels : List ℕ} {cicolor : List String} {lines : List (List K)} {time : List K}
    (h1 : nn - 1 ≤ lines.length) (h2 : nn - 1 ≤ clabels.length) (h3 : nn - 1 ≤ cicolor.length)
    (h4 : ∀ l ∈ lines, l.length = time.length) : ∃ cis, paintCred nn clabels cicolor lines time = .ok cis := by
  refine mapM_exists fun kk hk => ?_
  rw [List.mem_range] at hk
  have a1 : pyGet lines kk = .ok lines[kk] := pyGet_ok.2 (List.getElem?_eq_getElem (by omega))
  have a2 : pyRow lines (-(kk : ℤ) - 1) = .ok lines[lines.length - 1 - kk] := by
    unfold pyRow
    rw [if_neg (by omega), if_pos (by omega)]
    refine pyGet_ok.2 ?_
    rw [← List.getElem?_eq_getElem]
    congr 1
    omega
  have a3 : pyGet cicolor kk = .ok cicolor[kk] := pyGet_ok.2 (List.getElem?_eq_getElem (by omega))
  have a4 : pyGet clabels kk = .ok clabels[kk] := pyGet_ok.2 (List.getElem?_eq_getElem (by omega))
  rw [a1, ok_bind, a2, ok_bind, a3, ok_bind, a4, ok_bind]
  exact ⟨_, fillBetween_returns (h4 _ (List.getElem_mem _)) (h4 _ (List.getElem_mem _))⟩

theorem time_returns {d : PlotData K} (h : d.cx = 1) : ∃ time, d.time = .ok time ∧ time.length = d.nx := by
  have h1 : d.nx * d.cx = d.nx := by rw [h, Nat.mul_one]
  have h2 : d.time = .ok (List.ofFn fun i => List.ofFn (d.x i)).flatten := by
    unfold PlotData.time; rw [if_pos h1]
  exact ⟨_, h2, (time_isTime h2).1⟩

/-- **C119, no exception.** If there is a data set, the first has an output column, and for every data set the
independent data are one column with as many rows as the response, then generated intervals can be plotted;
with observations, if for every data set these are as many rows and at least as many columns as the response. -/
theorem C119_returns {sqrt exp : K → K} {R : IntResults K N p} (hinj : Function.Injective R.parind)
    {data : List D} {mf : ModelFun D K} {burnin : ℕ} {S : IntSetup K D N p}
    (hs : setupIntervals R data mf burnin = .ok S) {sstype : Option ℤ} {nsample : Option ℕ}
    {flag : PyFlag} {draws : List K} {noise : ℕ → ℕ → ℕ → ℕ → K} {out : IntOut K N}
    (hg : generateIntervals sqrt exp S sstype nsample flag draws noise = .ok out)
    {sh : ℕ → ℕ × ℕ} (hsh : FixedShape mf data sh) (hd : data ≠ []) (h0 : 0 < (sh 0).2) {plotOf : D → PlotData K}
    (hx : ∀ (ii : ℕ) d, data[ii]? = some d → (plotOf d).cx = 1 ∧ (plotOf d).nx = (sh ii).1) {adddata : Bool}
    (hy : adddata = true → ∀ (ii : ℕ) d, data[ii]? = some d →
      (plotOf d).ny = (plotOf d).nx ∧ (sh ii).2 ≤ (plotOf d).cy)
    (show' : PyFlag) (before : Canvas K) :
    ∃ axes after, plotPredictionIntervals out.credible out.prediction (data.map plotOf) show' adddata before =
      .ok (axes, after) := by
  obtain ⟨hlen, iis, -, hcred⟩ := C80_credible hinj hs hg
  obtain ⟨hpsome, hpred⟩ := C80_prediction hinj hs hg
  have hC : ∀ (ii : ℕ) d, data[ii]? = some d → ∃ cols, out.credible[ii]? = some cols ∧ cols.length = (sh ii).2 ∧
      ∀ (jj : ℕ) lines, cols[jj]? = some lines → lines.length = (if out.prediction.isSome then 3 else 9) ∧
        ∀ l ∈ lines, l.length = (sh ii).1 := by
    intro ii d hd
    obtain ⟨f, y0, cols, h1, h2, h3, h4, h5⟩ := hcred ii d hd
    obtain ⟨f', h1', h6⟩ := hsh ii d hd
    rw [h1] at h1'
    cases h1'
    obtain ⟨y, h7, h8⟩ := h6 (List.ofFn R.theta)
    rw [h2] at h7
    cases h7
    rw [h8] at h4 h5
    refine ⟨cols, h3, h4, fun jj lines hl => ?_⟩
    obtain ⟨lims, g1, g2⟩ := h5 jj (by rw [← h4]; exact (List.getElem?_eq_some_iff.1 hl).1)
    rw [hl] at g1
    cases g1
    obtain ⟨g3, g4, -⟩ := C80_ordered g2
    exact ⟨g3, g4⟩
  have hP : ∀ pred, out.prediction = some pred → ∀ (ii : ℕ) d, data[ii]? = some d → ∃ cols,
      pred[ii]? = some cols ∧ cols.length = (sh ii).2 ∧
      ∀ (jj : ℕ) lines, cols[jj]? = some lines → lines.length = 3 ∧ ∀ l ∈ lines, l.length = (sh ii).1 := by
    intro pred ho ii d hd
    obtain ⟨⟨n, s2⟩, hs2⟩ := Option.isSome_iff_exists.1 (hpsome.1 (by rw [ho]; rfl)).1
    obtain ⟨-, iis', ncols, -, -, hpr⟩ := hpred n s2 pred hs2 ho
    obtain ⟨f, y0, cols, h1, h2, -, h3, h4, h5⟩ := hpr ii d hd
    obtain ⟨f', h1', h6⟩ := hsh ii d hd
    rw [h1] at h1'
    cases h1'
    obtain ⟨y, h7, h8⟩ := h6 (List.ofFn R.theta)
    rw [h2] at h7
    cases h7
    rw [h8] at h4 h5
    refine ⟨cols, h3, h4, fun jj lines hl => ?_⟩
    obtain ⟨lims, g1, g2⟩ := h5 jj (by rw [← h4]; exact (List.getElem?_eq_some_iff.1 hl).1)
    rw [hl] at g1
    cases g1
    obtain ⟨g3, g4, -⟩ := C80_ordered g2
    exact ⟨g3, g4⟩
  have hpos : 0 < data.length := List.length_pos_iff.2 hd
  obtain ⟨cred0, hc0, hcl0, hcr0⟩ := hC 0 _ (List.getElem?_eq_getElem hpos)
  have hl0 : cred0[0]? = some cred0[0] := List.getElem?_eq_getElem (by omega)
  have hll0 := (hcr0 0 _ hl0).1
  unfold plotPredictionIntervals
  dsimp only
  rw [pyGet_ok.2 hc0, ok_bind, pyGet_ok.2 hl0, ok_bind, hll0]
  have hpan : ∃ panels, paintBatches out.credible (checkPredFlag show' out.prediction)
      (setupCountingMetrics (if out.prediction.isSome then 3 else 9)).1
      (setupLabels (checkPredFlag show' out.prediction).isSome
        (setupCountingMetrics (if out.prediction.isSome then 3 else 9)).2)
      (intervalColours (checkPredFlag show' out.prediction).isSome) (data.map plotOf) adddata = .ok panels := by
    refine mapM_exists fun ii hii => ?_
    rw [List.mem_range, List.length_map] at hii
    have hdi : data[ii]? = some data[ii] := List.getElem?_eq_getElem hii
    obtain ⟨cols, hc, hcl, hcr⟩ := hC ii _ hdi
    obtain ⟨hx1, hx2⟩ := hx ii _ hdi
    obtain ⟨time, ht, htl⟩ := time_returns hx1
    have hdm : pyGet (data.map plotOf) ii = .ok (plotOf data[ii]) :=
      pyGet_ok.2 (by rw [List.getElem?_map, hdi]; rfl)
    rw [pyGet_ok.2 hc, ok_bind, hdm, ok_bind, ht, ok_bind]
    refine mapM_exists fun jj hjj => ?_
    rw [List.mem_range] at hjj
    have hlj : cols[jj]? = some cols[jj] := List.getElem?_eq_getElem hjj
    obtain ⟨hl1, hl2⟩ := hcr jj _ hlj
    have hl3 : ∀ l ∈ cols[jj], l.length = time.length := fun l hl => by rw [hl2 l hl, htl, hx2]
    have hpis : ∃ pis, paintPred (checkPredFlag show' out.prediction)
        (setupLabels (checkPredFlag show' out.prediction).isSome
          (setupCountingMetrics (if out.prediction.isSome then 3 else 9)).2).2
        (intervalColours (checkPredFlag show' out.prediction).isSome).2 ii jj time = .ok pis := by
      cases ho : checkPredFlag show' out.prediction with
      | none => exact ⟨[], rfl⟩
      | some pred =>
        have ho' : out.prediction = some pred := by
          unfold checkPredFlag at ho
          split at ho
          · cases ho
          · exact ho
        obtain ⟨pcols, p1, p2, p3⟩ := hP pred ho' ii _ hdi
        have q1 : pcols[jj]? = some pcols[jj] := List.getElem?_eq_getElem (by omega)
        obtain ⟨q2, q3⟩ := p3 jj _ q1
        have q4 : pyGet pcols[jj] 0 = .ok pcols[jj][0] := pyGet_ok.2 (List.getElem?_eq_getElem (by omega))
        have q5 : pyRow pcols[jj] (-1) = .ok pcols[jj][2] := by
          unfold pyRow
          rw [if_neg (by norm_num), if_pos (by rw [q2]; norm_num)]
          refine pyGet_ok.2 ?_
          rw [← List.getElem?_eq_getElem]
          congr 1
          omega
        unfold paintPred
        simp only
        rw [pyGet_ok.2 p1, ok_bind, pyGet_ok.2 q1, ok_bind, q4, ok_bind, q5, ok_bind]
        refine ⟨[.band .pi 95 "#225ea8" time pcols[jj][0] pcols[jj][2]], ?_⟩
        change ((fillBetween .pi 95 "#225ea8" time _ _).bind fun b => .ok [b]) = _
        rw [fillBetween_returns (by rw [q3 _ (List.getElem_mem _), htl, hx2])
          (by rw [q3 _ (List.getElem_mem _), htl, hx2])]
        rfl
    obtain ⟨pis, hpis⟩ := hpis
    have hcis : ∃ cis, paintCred (setupCountingMetrics (if out.prediction.isSome then 3 else 9)).1
        (setupLabels (checkPredFlag show' out.prediction).isSome
          (setupCountingMetrics (if out.prediction.isSome then 3 else 9)).2).1
        (intervalColours (checkPredFlag show' out.prediction).isSome).1 cols[jj] time = .ok cis := by
      cases ho : out.prediction with
      | none =>
        have hn : checkPredFlag show' (none : Option (List (List (List (List K))))) = none := by
          unfold checkPredFlag; split <;> rfl
        rw [ho] at hl1
        rw [hn]
        simp only [Option.isSome_none, Bool.false_eq_true, if_false] at hl1 ⊢
        refine paintCred_returns ?_ ?_ ?_ hl3
        · rw [hl1]; decide
        · decide
        · decide
      | some pred =>
        rw [ho] at hl1
        simp only [Option.isSome_some, if_true] at hl1 ⊢
        refine paintCred_returns ?_ ?_ ?_ hl3
        · rw [hl1]; decide
        · cases (checkPredFlag show' (some pred)).isSome <;> decide
        · cases (checkPredFlag show' (some pred)).isSome <;> decide
    obtain ⟨cis, hcis⟩ := hcis
    have hmlt : (setupCountingMetrics (if out.prediction.isSome then 3 else 9)).1 - 1 < cols[jj].length := by
      rw [hl1]; cases out.prediction.isSome <;> decide
    have hmed := List.getElem?_eq_getElem hmlt
    have hdat : ∃ dat, paintData adddata (plotOf data[ii]) time jj = .ok dat := by
      unfold paintData
      split
      · rename_i ha
        obtain ⟨y1, y2⟩ := hy ha ii _ hdi
        rw [dif_pos (by omega), sameLength_self y1.symm]
        exact ⟨_, rfl⟩
      · exact ⟨_, rfl⟩
    obtain ⟨dat, hdat⟩ := hdat
    unfold paintColumn
    rw [hpis, ok_bind, pyGet_ok.2 hlj, ok_bind, hcis, ok_bind, pyGet_ok.2 hmed, ok_bind,
      sameLength_self (hl3 _ (List.getElem_mem _)).symm, ok_bind, hdat, ok_bind]
    exact ⟨_, rfl⟩
  obtain ⟨panels, hpan⟩ := hpan
  rw [hpan, ok_bind]
  exact ⟨_, _, rfl⟩

/-- **C119 is false for outputs without observations.** If the model of some data set has more output columns than
were observed, plotting with observations raises an exception, although the intervals were generated. -/
theorem C119_unobserved_refuted {sqrt exp : K → K} {R : IntResults K N p} (hinj : Function.Injective R.parind)
    {data : List D} {mf : ModelFun D K} {burnin : ℕ} {S : IntSetup K D N p}
    (hs : setupIntervals R data mf burnin = .ok S) {sstype : Option ℤ} {nsample : Option ℕ}
    {flag : PyFlag} {draws : List K} {noise : ℕ → ℕ → ℕ → ℕ → K} {out : IntOut K N}
    (hg : generateIntervals sqrt exp S sstype nsample flag draws noise = .ok out) {plotOf : D → PlotData K}
    {ii : ℕ} {d : D} (hd : data[ii]? = some d) {cols : List (List (List K))} (hc : out.credible[ii]? = some cols)
    (hy : (plotOf d).cy < cols.length) (show' : PyFlag) (before : Canvas K) :
    ∃ e, plotPredictionIntervals out.credible out.prediction (data.map plotOf) show' true before = .error e := by
  cases hp : plotPredictionIntervals out.credible out.prediction (data.map plotOf) show' true before with
  | error e => exact ⟨e, rfl⟩
  | ok r =>
    exfalso
    obtain ⟨axes, after⟩ := r
    obtain ⟨hlen, -⟩ := C80_credible hinj hs hg
    unfold plotPredictionIntervals at hp
    dsimp only at hp
    obtain ⟨cred0, hc0, hp⟩ := bind_ok.1 hp
    obtain ⟨lines0, hl0, hp⟩ := bind_ok.1 hp
    obtain ⟨panels, hpan, hp⟩ := bind_ok.1 hp
    obtain ⟨-, hcont⟩ := paintBatches_ok (by rw [hlen, List.length_map]) hpan
    obtain ⟨time, cont, -, hcol, -⟩ := hcont ii (plotOf d).cy (plotOf d) cols cols[(plotOf d).cy]
      (by rw [List.getElem?_map, hd]; rfl) hc (List.getElem?_eq_getElem hy)
    unfold paintColumn at hcol
    obtain ⟨_, -, hcol⟩ := bind_ok.1 hcol
    obtain ⟨_, -, hcol⟩ := bind_ok.1 hcol
    obtain ⟨_, -, hcol⟩ := bind_ok.1 hcol
    obtain ⟨_, -, hcol⟩ := bind_ok.1 hcol
    obtain ⟨_, -, hcol⟩ := bind_ok.1 hcol
    obtain ⟨_, hdat, -⟩ := bind_ok.1 hcol
    unfold paintData at hdat
    rw [if_pos rfl, dif_neg (lt_irrefl _)] at hdat
    cases hdat

end

/-! ### Examples -/

namespace IntervalExample

/-- the data of the two data sets of `IntervalExample`: two points and one, one and two observed columns -/
def plotOf (d : ℚ) : PlotData ℚ :=
  if d = 2 then ⟨2, 1, fun i _ => i, 2, 1, fun i _ => 10 + i⟩ else ⟨1, 1, fun _ _ => 5, 1, 2, fun _ j => 20 + j⟩

theorem plotOf_x : ∀ (ii : ℕ) d, [(2 : ℚ), 5][ii]? = some d →
    (plotOf d).cx = 1 ∧ (plotOf d).nx = (shape ii).1 := by
  intro ii d hd
  match ii, hd with
  | 0, h => cases h; exact ⟨rfl, rfl⟩
  | 1, h => cases h; exact ⟨rfl, rfl⟩
  | n + 2, hd => simp at hd

theorem plotOf_y : ∀ (ii : ℕ) d, [(2 : ℚ), 5][ii]? = some d →
    (plotOf d).ny = (plotOf d).nx ∧ (shape ii).2 ≤ (plotOf d).cy := by
  intro ii d hd
  match ii, hd with
  | 0, h => cases h; exact ⟨rfl, by decide⟩
  | 1, h => cases h; exact ⟨rfl, by decide⟩
  | n + 2, hd => simp at hd

theorem generated (sqrt exp : ℚ → ℚ) (noise : ℕ → ℕ → ℕ → ℕ → ℚ) : ∃ S out,
    setupIntervals results [2, 5] modelfun 1 = .ok S ∧
    generateIntervals sqrt exp S none (some 3) (.str "on") [0, 1 / 2, 9 / 10] noise = .ok out := by
  refine C80_returns fixedShape (by decide) ?_ (by decide) ?_ ?_ _ _
  · intro n s2 h
    cases h
    exact ⟨rfl, .inr (.inl (by decide))⟩
  · intro m hm; cases hm; exact ⟨by decide, by decide⟩
  · intro u hu
    simp only [List.mem_cons, List.not_mem_nil, or_false] at hu
    rcases hu with h | h | h <;> subst h <;> norm_num

/-- the hypotheses of `C119_returns`, and with them those of `C119_shown_partial`, can be met: two data sets with different
models, with prediction intervals and observations -/
example (sqrt exp : ℚ → ℚ) (noise : ℕ → ℕ → ℕ → ℕ → ℚ) : ∃ S out axes after,
    setupIntervals results [2, 5] modelfun 1 = .ok S ∧
    generateIntervals sqrt exp S none (some 3) (.str "on") [0, 1 / 2, 9 / 10] noise = .ok out ∧
    plotPredictionIntervals out.credible out.prediction ([2, 5].map plotOf) (.bool true) true (fun _ => []) =
      .ok (axes, after) := by
  obtain ⟨S, out, h1, h2⟩ := generated sqrt exp noise
  obtain ⟨axes, after, h3⟩ := C119_returns (fun _ _ _ => Subsingleton.elim _ _) h1 h2 fixedShape (by simp)
    (by decide) plotOf_x (fun _ => plotOf_y) (.bool true) (fun _ => [])
  exact ⟨S, out, axes, after, h1, h2, h3⟩

/-- **C119 is false for a second plot.** A second plot of the same intervals, now without prediction intervals, is drawn
over the first: its axes still show the prediction band. -/
theorem _root_.Verif.C119_second_refuted : ∃ (S : IntSetup ℚ ℚ 2 1) (out : IntOut ℚ 2) (axes axes' : List AxesName)
    (cv cv' : Canvas ℚ),
    setupIntervals results [2, 5] modelfun 1 = .ok S ∧
    generateIntervals id id S none (some 3) (.str "on") [0, 1 / 2, 9 / 10] (fun _ _ _ _ => 0) = .ok out ∧
    plotPredictionIntervals out.credible out.prediction ([2, 5].map plotOf) (.bool true) false (fun _ => []) =
      .ok (axes, cv) ∧
    plotPredictionIntervals out.credible out.prediction ([2, 5].map plotOf) (.bool false) false cv =
      .ok (axes', cv') ∧
    ∃ a ∈ axes', ∃ colour time lo hi, Painted.band .pi 95 colour time lo hi ∈ cv' a := by
  have hinj : Function.Injective results.parind := fun _ _ _ => Subsingleton.elim _ _
  obtain ⟨S, out, h1, h2⟩ := generated id id fun _ _ _ _ => 0
  obtain ⟨axes, cv, h3⟩ := C119_returns hinj h1 h2 fixedShape (by simp) (by decide) plotOf_x
    (fun h => by cases h) (adddata := false) (.bool true) (fun _ => [])
  obtain ⟨axes', cv', h4⟩ := C119_returns hinj h1 h2 fixedShape (by simp) (by decide) plotOf_x
    (fun h => by cases h) (adddata := false) (.bool false) cv
  obtain ⟨hpred, -⟩ := C80_prediction hinj h1 h2
  obtain ⟨pred, hp⟩ := Option.isSome_iff_exists.1 (hpred.2 ⟨rfl, by simp, by simp⟩)
  obtain ⟨hlen, -, hmem, -, hshow⟩ := C119_shown_partial hinj h1 h2 h3
  obtain ⟨-, -, hmem', -, hshow'⟩ := C119_shown_partial hinj h1 h2 h4
  obtain ⟨f, y0, cols, g1, g2, g3, g4, -⟩ := (C80_credible hinj h1 h2).2.choose_spec.2 0 2 rfl
  have hcl : 0 < cols.length := by
    rw [g4]
    cases g1
    cases g2
    decide
  have hl : cols[0]? = some cols[0] := List.getElem?_eq_getElem hcl
  obtain ⟨time, med, pis, cis, dat, e1, -, e2, -⟩ := hshow 0 0 2 cols _ rfl g3 hl
  obtain ⟨time', med', pis', cis', dat', e1', -⟩ := hshow' 0 0 2 cols _ rfl g3 hl
  rw [if_neg (by simp), hp] at e2
  obtain ⟨pcols, plines, -, -, hf⟩ := e2
  cases hf with
  | cons hb hf =>
    obtain ⟨colour, lo, hi, _, _, _, _, rfl, -⟩ := hb
    refine ⟨S, out, axes, axes', cv, cv', h1, h2, h3, h4, _, (hmem' _).2 ⟨0, 0, cols, g3, hcl, rfl⟩, colour, time, lo,
      hi, ?_⟩
    rw [e1', e1]
    simp

/-- the hypotheses of `C119_unobserved_refuted` can be met: the model of the second data set has two columns, one of
which is observed -/
example (sqrt exp : ℚ → ℚ) (noise : ℕ → ℕ → ℕ → ℕ → ℚ) : ∃ S out cols,
    setupIntervals results [2, 5] modelfun 1 = .ok S ∧
    generateIntervals sqrt exp S none (some 3) (.str "on") [0, 1 / 2, 9 / 10] noise = .ok out ∧
    out.credible[1]? = some cols ∧ ({ plotOf 5 with cy := 1, y := fun _ _ => 20 } : PlotData ℚ).cy < cols.length := by
  have hinj : Function.Injective results.parind := fun _ _ _ => Subsingleton.elim _ _
  obtain ⟨S, out, h1, h2⟩ := generated sqrt exp noise
  obtain ⟨f, y0, cols, g1, g2, g3, g4, -⟩ := (C80_credible hinj h1 h2).2.choose_spec.2 1 5 rfl
  refine ⟨S, out, cols, h1, h2, g3, ?_⟩
  rw [g4]
  cases g1
  cases g2
  decide

end IntervalExample

end Verif
