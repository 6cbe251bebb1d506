import Verif.Model.IntervalPlots
import Verif.Props.Panels
import Verif.Props.Quantiles
import Verif.Props.ParallelLoad
import Mathlib.Tactic.Linarith
import Mathlib.Tactic.NormNum

/-!
# Properties C92 – C95: plots of propagation intervals, and the arguments of plotting calls
-/

set_option linter.unusedSectionVars false

namespace Verif

section
variable {K κ M : Type} [Field K] [LinearOrder K] [IsStrictOrderedRing K] [FloorSemiring K] {c : ℕ}

/-- what a caller can read off a band -/
structure BandView (K κ M : Type) (c : ℕ) where
  kind : IntKind
  limit : K
  colour : Colour K κ M
  times : List K
  lo : Fin c → K
  hi : Fin c → K

/-- the band of a drawing -/
def Drawn.view : Drawn K κ M c → Option (BandView K κ M c)
  | .band kind limit colour times lo hi => some ⟨kind, limit, colour, times, lo, hi⟩
  | _ => none

/-- `bs` are the bands a user expects for `limits` of the samples `x`: one per limit, the wider ones
first, each over the times and between the two quantiles that cut off the same share at both ends -/
structure Bands (kind : IntKind) (x : List (Fin c → K)) (time limits : List K)
    (bs : List (BandView K κ M c)) : Prop where
  kind : ∀ b ∈ bs, b.kind = kind
  times : ∀ b ∈ bs, b.times = time
  limits : (bs.map fun b => b.limit).Perm limits
  wide_first : (bs.map fun b => b.limit).Pairwise (· ≥ ·)
  edges : ∀ b ∈ bs, empiricalQuantiles x [(1 - b.limit / 100) / 2, 1 - (1 - b.limit / 100) / 2] =
    .ok [b.lo, b.hi]

theorem colours_length {limits : List K} {cmap : Option M} {colors : Option (List κ)}
    {kind : IntKind} {cs : List (Colour K κ M)}
    (h : setupIntervalColors limits cmap colors kind = .ok cs) : cs.length = limits.length := by
  unfold setupIntervalColors at h
  obtain ⟨norm, -, h⟩ := bind_ok.1 h
  split at h
  · cases h; simp
  · split at h
    · rename_i hl; cases h; simpa using hl
    · cases h; simp

theorem colours_ok {limits : List K} (h : limits ≠ []) (cmap : Option M) (colors : Option (List κ))
    (kind : IntKind) : ∃ cs, setupIntervalColors limits cmap colors kind = .ok cs ∧
      (∀ u, colors = some u → u.length = limits.length → cs = u.map .user) := by
  obtain ⟨norm, hn⟩ : ∃ n, setupCmapNorm limits = .ok n := by
    match limits, h with
    | [a], _ => exact ⟨_, rfl⟩
    | a :: b :: l, _ => exact ⟨_, rfl⟩
  unfold setupIntervalColors
  rw [hn, ok_bind]
  cases colors with
  | none => exact ⟨_, rfl, fun u hu => by cases hu⟩
  | some u =>
    dsimp only
    split
    · exact ⟨_, rfl, fun u' hu' _ => by cases hu'; rfl⟩
    · rename_i hl
      exact ⟨_, rfl, fun u' hu' hl' => by cases hu'; exact absurd hl' hl⟩

theorem bandCurves_ok {x : List (Fin c → K)} (hn : 2 ≤ x.length) {limits : List K}
    (hl : ∀ l ∈ limits, 0 ≤ l ∧ l ≤ 100) {cs : List (Colour K κ M)}
    (hc : cs.length = limits.length) :
    ∃ bs, bandCurves x limits cs = .ok bs ∧ bs.map (fun b => b.1) = limits ∧
      bs.map (fun b => b.2.1) = cs ∧
      ∀ b ∈ bs, empiricalQuantiles x [(1 - b.1 / 100) / 2, 1 - (1 - b.1 / 100) / 2] =
        .ok [b.2.2.1, b.2.2.2] := by
  have hq : ∀ l ∈ limits, ∃ lo hi : Fin c → K,
      empiricalQuantiles x [(1 - l / 100) / 2, 1 - (1 - l / 100) / 2] = .ok [lo, hi] := by
    intro l h
    obtain ⟨h0, h1⟩ := hl l h
    have h2 : l / 100 ≤ 1 := by rw [div_le_one (by norm_num)]; exact h1
    have h3 : 0 ≤ l / 100 := div_nonneg h0 (by norm_num)
    rw [empiricalQuantiles_ok hn]
    · exact ⟨_, _, rfl⟩
    · intro q hq
      simp only [List.mem_cons, List.not_mem_nil, or_false] at hq
      rcases hq with rfl | rfl <;> constructor <;> linarith
  choose! lo hi hlh using hq
  refine ⟨(limits.zip cs).map fun z => (z.1, z.2, lo z.1, hi z.1), ?_, ?_, ?_, ?_⟩
  · unfold bandCurves
    rw [mapM_ok_iff]
    refine ⟨by simp [hc], fun i a ha => ?_⟩
    obtain ⟨hi', rfl⟩ : i < limits.length ∧ i = a := by
      rw [List.getElem?_eq_some_iff] at ha
      obtain ⟨h1, h2⟩ := ha
      simp only [List.length_range] at h1
      simp only [List.getElem_range] at h2
      exact ⟨h1, h2⟩
    have g1 : pyGet (convertLimits limits) i =
        .ok [(1 - limits[i] / 100) / 2, 1 - (1 - limits[i] / 100) / 2] := by
      rw [pyGet_ok, convertLimits, List.getElem?_map, List.getElem?_eq_getElem hi']
      simp only [Option.map_some, Option.some.injEq, List.cons.injEq, and_true]
      constructor <;> ring
    have g2 : twoCurves x [(1 - limits[i] / 100) / 2, 1 - (1 - limits[i] / 100) / 2] =
        .ok (lo limits[i], hi limits[i]) := by
      unfold twoCurves
      rw [hlh _ (List.getElem_mem hi'), ok_bind]
      rfl
    have g3 : pyGet cs i = .ok cs[i] := by rw [pyGet_ok, List.getElem?_eq_getElem (by omega)]
    have g4 : pyGet limits i = .ok limits[i] := by rw [pyGet_ok, List.getElem?_eq_getElem hi']
    refine ⟨(limits[i], cs[i], lo limits[i], hi limits[i]), ?_, ?_⟩
    · rw [g1, ok_bind, g2, ok_bind, g3, ok_bind, g4, ok_bind]
    · rw [List.getElem?_map, List.getElem?_eq_getElem (by rw [List.length_zip]; omega),
        List.getElem_zip]
      rfl
  · rw [List.map_map]
    exact List.map_fst_zip (by omega)
  · rw [List.map_map]
    exact List.map_snd_zip (by omega)
  · intro b hb
    obtain ⟨z, hz, rfl⟩ := List.mem_map.1 hb
    exact hlh _ (List.of_mem_zip hz).1

/-- a non-empty list of percentages -/
def ValidLimits (l : List K) : Prop := l ≠ [] ∧ ∀ a ∈ l, 0 ≤ a ∧ a ≤ 100

theorem sorted_valid {l : List K} (h : ValidLimits l) : ValidLimits (l.insertionSort (· ≥ ·)) := by
  have hp := List.perm_insertionSort (· ≥ ·) l
  refine ⟨fun e => h.1 ?_, fun a ha => h.2 a (hp.mem_iff.1 ha)⟩
  rw [e] at hp
  exact List.nil_perm.1 hp

/-- the settings of one type of interval -/
theorem setupIset_ok {limits : List K} {iset : IntervalSet K κ M}
    (h : ValidLimits (iset.limits.getD limits)) (kind : IntKind) :
    ∃ cs, setupIset limits iset kind = .ok ((iset.limits.getD limits).insertionSort (· ≥ ·), cs) ∧
      cs.length = ((iset.limits.getD limits).insertionSort (· ≥ ·)).length ∧
      setupIntervalColors ((iset.limits.getD limits).insertionSort (· ≥ ·)) iset.cmap iset.colors
        kind = .ok cs := by
  obtain ⟨cs, hcs, -⟩ := colours_ok (sorted_valid h).1 iset.cmap iset.colors kind
  refine ⟨cs, ?_, colours_length hcs, hcs⟩
  unfold setupIset checkIntervalLimits
  dsimp only
  rw [hcs, ok_bind]

theorem drawBands_ok {x : List (Fin c → K)} (hn : 2 ≤ x.length) {time : List K}
    (ht : time.length = c) {limits : List K} {iset : IntervalSet K κ M}
    (h : ValidLimits (iset.limits.getD limits)) (kind : IntKind) {cs : List (Colour K κ M)}
    (hc : cs.length = ((iset.limits.getD limits).insertionSort (· ≥ ·)).length) :
    ∃ ds, ∃ bs : List (BandView K κ M c), drawBands kind true (some x) time
        ((iset.limits.getD limits).insertionSort (· ≥ ·)) cs = .ok ds ∧
      ds.filterMap Drawn.view = bs ∧ (∀ d ∈ ds, d.view ≠ none) ∧
      Bands kind x time (iset.limits.getD limits) bs ∧
      bs.map (fun b => b.limit) = (iset.limits.getD limits).insertionSort (· ≥ ·) ∧
      bs.map (fun b => b.colour) = cs := by
  obtain ⟨bs, hb, h1, h2, h3⟩ := bandCurves_ok hn (sorted_valid h).2 hc
  refine ⟨bs.map fun b => .band kind b.1 b.2.1 time b.2.2.1 b.2.2.2,
    bs.map fun b => ⟨kind, b.1, b.2.1, time, b.2.2.1, b.2.2.2⟩, ?_, ?_, ?_, ⟨?_, ?_, ?_, ?_, ?_⟩, ?_, ?_⟩
  · unfold drawBands samplesOf sameLength
    rw [if_neg (by simp)]
    simp only [orRaise, ok_bind]
    rw [hb, ok_bind, if_pos ht, ok_bind]
  · rw [List.filterMap_map, ← List.filterMap_eq_map]
    rfl
  · intro d hd
    obtain ⟨b, -, rfl⟩ := List.mem_map.1 hd
    simp [Drawn.view]
  · intro b hb'
    obtain ⟨z, -, rfl⟩ := List.mem_map.1 hb'
    rfl
  · intro b hb'
    obtain ⟨z, -, rfl⟩ := List.mem_map.1 hb'
    rfl
  · rw [List.map_map]
    have : (bs.map ((fun b : BandView K κ M c => b.limit) ∘ fun b =>
        (⟨kind, b.1, b.2.1, time, b.2.2.1, b.2.2.2⟩ : BandView K κ M c))) = bs.map fun b => b.1 := rfl
    rw [this, h1]
    exact List.perm_insertionSort _ _
  · rw [List.map_map]
    have : (bs.map ((fun b : BandView K κ M c => b.limit) ∘ fun b =>
        (⟨kind, b.1, b.2.1, time, b.2.2.1, b.2.2.2⟩ : BandView K κ M c))) = bs.map fun b => b.1 := rfl
    rw [this, h1]
    exact List.pairwise_insertionSort _ _
  · intro b hb'
    obtain ⟨z, hz, rfl⟩ := List.mem_map.1 hb'
    exact h3 z hz
  · rw [List.map_map]; exact h1
  · rw [List.map_map]; exact h2

/-- the observations fit their positions -/
def DataFits (time : List K) (ydata xdata : Option (List K)) : Prop :=
  ∀ y, ydata = some y → (xdata.getD time).length = y.length

/-- the observations that should be drawn: at `xdata` if given, else at the times, unless switched
off -/
def expectedData (adddata : Option Bool) (time : List K) (xdata ydata : Option (List K)) :
    List (Drawn K κ M c) :=
  match ydata with
  | none => []
  | some y => if adddata = some false then [] else [.data (xdata.getD time) y]

theorem expectedData_view {adddata : Option Bool} {time : List K} {xdata ydata : Option (List K)}
    {d : Drawn K κ M c} (h : d ∈ expectedData adddata time xdata ydata) :
    ∃ x y, d = .data x y := by
  unfold expectedData at h
  split at h
  · cases h
  · split at h
    · cases h
    · simp only [List.mem_cons, List.not_mem_nil, or_false] at h; exact ⟨_, _, h⟩

theorem drawData_ok {time : List K} {ydata xdata : Option (List K)} (h : DataFits time ydata xdata)
    (adddata : Option Bool) :
    drawData (κ := κ) (M := M) (c := c) adddata time xdata ydata =
      .ok (expectedData adddata time xdata ydata) := by
  unfold drawData expectedData
  cases ydata with
  | none => rfl
  | some y =>
    dsimp only
    unfold sameLength
    rw [if_pos (h y rfl)]
    rcases adddata with _ | _ | _ <;> rfl

theorem median_ok {x : List (Fin c → K)} (hn : 2 ≤ x.length) :
    ∃ y, empiricalQuantiles x [1 / 2] = .ok [y] ∧ medianCurve x = .ok y := by
  have h : ∀ q ∈ [(1 / 2 : K)], 0 ≤ q ∧ q ≤ 1 := by
    intro q hq
    simp only [List.mem_cons, List.not_mem_nil, or_false] at hq
    subst hq
    constructor <;> norm_num
  refine ⟨_, by rw [empiricalQuantiles_ok hn h]; rfl, ?_⟩
  unfold medianCurve
  rw [empiricalQuantiles_ok hn h, ok_bind]
  rfl

/-- everything `plot_intervals` draws -/
theorem plotIntervals_spec {credible prediction : List (Fin c → K)} (hcr : 2 ≤ credible.length)
    (hpr : 2 ≤ prediction.length) {time : List K} (ht : time.length = c) {limits : List K}
    {ciset piset : IntervalSet K κ M} (hci : ValidLimits (ciset.limits.getD limits))
    (hpi : ValidLimits (piset.limits.getD limits)) {ydata xdata : Option (List K)}
    (hd : DataFits time ydata xdata) (adddata : Option Bool) (addmodel : Bool) :
    ∃ fig, ∃ pb cb : List (BandView K κ M c), ∃ d1 d2, ∃ med : Fin c → K, ∃ ccs pcs,
      plotIntervals credible (some prediction) time ydata xdata limits adddata addmodel true true
        ciset piset = .ok fig ∧
      fig.drawn = d1 ++ d2 ++ (if addmodel then [.model time med] else []) ++
        expectedData adddata time xdata ydata ∧
      d1.filterMap Drawn.view = pb ∧ d2.filterMap Drawn.view = cb ∧
      (∀ d ∈ d1 ++ d2, d.view ≠ none) ∧
      Bands .pi prediction time (piset.limits.getD limits) pb ∧
      Bands .ci credible time (ciset.limits.getD limits) cb ∧
      empiricalQuantiles credible [1 / 2] = .ok [med] ∧
      setupIntervalColors ((ciset.limits.getD limits).insertionSort (· ≥ ·)) ciset.cmap
        ciset.colors .ci = .ok ccs ∧
      setupIntervalColors ((piset.limits.getD limits).insertionSort (· ≥ ·)) piset.cmap
        piset.colors .pi = .ok pcs ∧
      cb.map (fun b => b.limit) = (ciset.limits.getD limits).insertionSort (· ≥ ·) ∧
      pb.map (fun b => b.limit) = (piset.limits.getD limits).insertionSort (· ≥ ·) ∧
      cb.map (fun b => b.colour) = ccs ∧ pb.map (fun b => b.colour) = pcs := by
  obtain ⟨ccs, c1, c2, c3⟩ := setupIset_ok hci .ci
  obtain ⟨pcs, p1, p2, p3⟩ := setupIset_ok hpi .pi
  obtain ⟨d1, pb, e1, v1, n1, b1, l1, k1⟩ := drawBands_ok hpr ht hpi .pi p2
  obtain ⟨d2, cb, e2, v2, n2, b2, l2, k2⟩ := drawBands_ok hcr ht hci .ci c2
  obtain ⟨med, m1, m2⟩ := median_ok hcr
  have hm : drawModel (κ := κ) (M := M) addmodel credible time =
      .ok (if addmodel then [.model time med] else []) := by
    unfold drawModel
    cases addmodel with
    | false => rfl
    | true =>
      rw [if_neg (by simp), m2, ok_bind]
      unfold sameLength
      rw [if_pos ht, ok_bind]
      rfl
  refine ⟨⟨_, limitsAfter limits ciset piset, isetLimitsAfter ciset, isetLimitsAfter piset⟩, pb, cb,
    d1, d2, med, ccs, pcs, ?_, rfl, v1, v2, ?_, b1, b2, m1, c3, p3, l2, l1, k2, k1⟩
  · unfold plotIntervals
    rw [c1, ok_bind, p1, ok_bind]
    dsimp only
    rw [e1, ok_bind, e2, ok_bind, hm, ok_bind, drawData_ok hd, ok_bind]
  · intro d hd'
    rcases List.mem_append.1 hd' with h | h
    · exact n1 d h
    · exact n2 d h

/-- **C92, full statement:** for every result of `calculate_intervals`, `plot_intervals` draws the
prediction bands, then the credible bands, then the median response, then the observations.  There
is one band per limit, the wider ones first; the band of limit `l` lies between the quantiles that
cut off `(1 - l/100)/2` at both ends, and its label shows `l`.
**Proved here** when the result has prediction intervals (it was computed with error variances);
see `C92_no_variance_refuted`. -/
theorem C92_bands_partial {credible prediction : List (Fin c → K)} (hcr : 2 ≤ credible.length)
    (hpr : 2 ≤ prediction.length) {time : List K} (ht : time.length = c) {limits : List K}
    {ciset piset : IntervalSet K κ M} (hci : ValidLimits (ciset.limits.getD limits))
    (hpi : ValidLimits (piset.limits.getD limits)) {ydata xdata : Option (List K)}
    (hd : DataFits time ydata xdata) (adddata : Option Bool) (addmodel : Bool) :
    ∃ fig, ∃ pb cb : List (BandView K κ M c), ∃ med : Fin c → K,
      plotIntervals credible (some prediction) time ydata xdata limits adddata addmodel true true
        ciset piset = .ok fig ∧
      fig.drawn.filterMap Drawn.view = pb ++ cb ∧
      Bands .pi prediction time (piset.limits.getD limits) pb ∧
      Bands .ci credible time (ciset.limits.getD limits) cb ∧
      empiricalQuantiles credible [1 / 2] = .ok [med] ∧
      (∀ t y, Drawn.model t y ∈ fig.drawn ↔ addmodel = true ∧ t = time ∧ y = med) ∧
      (∀ (i j : ℕ) (d e : Drawn K κ M c), fig.drawn[i]? = some d → fig.drawn[j]? = some e →
        d.view ≠ none → e.view = none → i < j) ∧
      (fig.drawn.filter fun d => d.view.isNone) = (if addmodel then [.model time med] else []) ++
        expectedData adddata time xdata ydata := by
  obtain ⟨fig, pb, cb, d1, d2, med, ccs, pcs, h, hf, v1, v2, hn, b1, b2, m, -⟩ :=
    plotIntervals_spec hcr hpr ht hci hpi hd adddata addmodel
  rw [List.append_assoc] at hf
  generalize hr : (if addmodel then [Drawn.model time med] else []) ++
    expectedData adddata time xdata ydata = rest at hf
  have hrest : ∀ d ∈ rest, d.view = none := by
    intro d hd'
    rw [← hr] at hd'
    rcases List.mem_append.1 hd' with h | h
    · split at h
      · simp only [List.mem_cons, List.not_mem_nil, or_false] at h; subst h; rfl
      · cases h
    · obtain ⟨x, y, rfl⟩ := expectedData_view h
      rfl
  refine ⟨fig, pb, cb, med, h, ?_, b1, b2, m, ?_, ?_, ?_⟩
  · rw [hf, List.filterMap_append, List.filterMap_append, v1, v2,
      List.filterMap_eq_nil_iff.2 hrest, List.append_nil]
  · intro t y
    rw [hf, List.mem_append]
    constructor
    · rintro (h' | h')
      · exact absurd rfl (hn _ h')
      · rw [← hr, List.mem_append] at h'
        rcases h' with h' | h'
        · split at h'
          · rename_i ha
            simp only [List.mem_cons, List.not_mem_nil, or_false, Drawn.model.injEq] at h'
            exact ⟨ha, h'.1, h'.2⟩
          · cases h'
        · obtain ⟨x, y, h''⟩ := expectedData_view h'
          cases h''
    · rintro ⟨rfl, rfl, rfl⟩
      right
      rw [← hr]
      simp
  · intro i j d e hi hj hd' he
    rw [hf] at hi hj
    by_contra hge
    have hlen : j < (d1 ++ d2).length ∨ (d1 ++ d2).length ≤ j := Nat.lt_or_ge _ _
    rcases hlen with hlt | hlt
    · rw [List.getElem?_append_left hlt] at hj
      exact hn e (List.mem_of_getElem? hj) he
    · rw [List.getElem?_append_right (by omega)] at hi
      exact hd' (hrest d (List.mem_of_getElem? hi))
  · rw [hf, List.filter_append, List.filter_eq_nil_iff.2, List.nil_append, List.filter_eq_self.2, hr]
    · intro d hd'
      rw [hrest d hd']
      rfl
    · intro d hd'
      have := hn d hd'
      cases hv : d.view with
      | none => exact absurd hv this
      | some b => simp

/-! Three samples of a response at two times, and settings, for the examples below. -/

/-- the responses -/
def ipSamples : List (Fin 2 → ℚ) := [![0, 1], ![2, 5], ![1, 3]]
/-- the responses with observation errors -/
def ipNoisy : List (Fin 2 → ℚ) := [![-1, 2], ![3, 5], ![1, 0]]
/-- settings without limits -/
def ipPlain : IntervalSet ℚ ℕ ℕ := ⟨none, none, none⟩

theorem ip_valid {l : List ℚ} (h : l ≠ [] ∧ ∀ a ∈ l, 0 ≤ a ∧ a ≤ 100 := by decide +kernel) :
    ValidLimits l := h

theorem ip_fits : DataFits (K := ℚ) [0, 1] (some [3, 4, 5]) (some [0, 1, 2]) := by
  intro y hy
  cases hy
  rfl

example := C92_bands_partial (credible := ipSamples) (prediction := ipNoisy) (by decide) (by decide)
  (time := [0, 1]) rfl (limits := [50, 90]) (ciset := ipPlain) (piset := ⟨some [95], some 7, none⟩)
  ip_valid ip_valid ip_fits none true

/-- **Refutation of C92 without error variances:** `calculate_intervals` then returns `None` for the
prediction intervals, and the default call of `plot_intervals` raises. -/
theorem C92_no_variance_refuted (credible : List (Fin c → K)) (time : List K) {limits : List K}
    {ciset piset : IntervalSet K κ M} (hci : ValidLimits (ciset.limits.getD limits))
    (hpi : ValidLimits (piset.limits.getD limits)) (ydata xdata : Option (List K))
    (adddata : Option Bool) (addmodel addcredible : Bool) :
    plotIntervals credible none time ydata xdata limits adddata addmodel addcredible true
      ciset piset = .error .attributeError := by
  obtain ⟨ccs, c1, -, -⟩ := setupIset_ok hci .ci
  obtain ⟨pcs, p1, -, -⟩ := setupIset_ok hpi .pi
  unfold plotIntervals
  rw [c1, ok_bind, p1, ok_bind]
  rfl

example := C92_no_variance_refuted ipSamples [0, 1] (limits := [50, 90]) (ciset := ipPlain)
  (piset := ipPlain) ip_valid ip_valid none none none true true

/-- bands of one type only -/
theorem drawBands_kind {kind : IntKind} {on : Bool} {x : Option (List (Fin c → K))} {time limits : List K}
    {cs : List (Colour K κ M)} {ds : List (Drawn K κ M c)} (h : drawBands kind on x time limits cs = .ok ds) :
    ∀ d ∈ ds, ∃ b, d.view = some b ∧ b.kind = kind := by
  unfold drawBands at h
  split at h
  · cases h; simp
  · obtain ⟨x', -, h⟩ := bind_ok.1 h
    obtain ⟨bs, -, h⟩ := bind_ok.1 h
    obtain ⟨_, -, h⟩ := bind_ok.1 h
    cases h
    intro d hd
    obtain ⟨b, -, rfl⟩ := List.mem_map.1 hd
    exact ⟨_, rfl, rfl⟩

theorem drawModel_view {on : Bool} {credible : List (Fin c → K)} {time : List K} {ds : List (Drawn K κ M c)}
    (h : drawModel on credible time = .ok ds) : ∀ d ∈ ds, d.view = none := by
  unfold drawModel at h
  split at h
  · cases h; simp
  · obtain ⟨y, -, h⟩ := bind_ok.1 h
    obtain ⟨_, -, h⟩ := bind_ok.1 h
    cases h
    simp [Drawn.view]

theorem drawData_view {adddata : Option Bool} {time : List K} {xdata ydata : Option (List K)}
    {ds : List (Drawn K κ M c)} (h : drawData adddata time xdata ydata = .ok ds) : ∀ d ∈ ds, d.view = none := by
  unfold drawData at h
  split at h
  · cases h; simp
  · dsimp only at h
    split at h
    · split at h
      · cases hl : sameLength (xdata.getD time).length _ with
        | error e => rw [hl] at h; cases h
        | ok u => rw [hl] at h; cases h; simp [Drawn.view]
      · cases h; simp
    · split at h
      · cases hl : sameLength (xdata.getD time).length _ with
        | error e => rw [hl] at h; cases h
        | ok u => rw [hl] at h; cases h; simp [Drawn.view]
      · cases h; simp

/-- whether something is shown with `addcredible` and `addprediction` set to the given values -/
def shownWith (cr pr : Bool) (view : Option IntKind) : Bool :=
  match view with
  | some .pi => pr
  | some .ci => cr
  | none => true

/-- **C92, the switches:** with `addcredible` or `addprediction` set to `False`, `plot_intervals` draws what it
draws otherwise except the bands of that type, which need not be available then. -/
theorem C92_switches {credible : List (Fin c → K)} {prediction : Option (List (Fin c → K))} {time limits : List K}
    {ciset piset : IntervalSet K κ M} {ydata xdata : Option (List K)} {adddata : Option Bool} {addmodel : Bool}
    {fig : IntervalFigure K (Drawn K κ M c)}
    (h : plotIntervals credible prediction time ydata xdata limits adddata addmodel true true ciset piset = .ok fig)
    (cr pr : Bool) {available : Option (List (Fin c → K))} (ha : pr = true → available = prediction) :
    ∃ fig', plotIntervals credible available time ydata xdata limits adddata addmodel cr pr ciset piset = .ok fig' ∧
      fig'.drawn = fig.drawn.filter fun d => shownWith cr pr (d.view.map fun b => b.kind) := by
  unfold plotIntervals at h
  obtain ⟨ci, hci, h⟩ := bind_ok.1 h
  obtain ⟨pi, hpi, h⟩ := bind_ok.1 h
  obtain ⟨d1, h1, h⟩ := bind_ok.1 h
  obtain ⟨d2, h2, h⟩ := bind_ok.1 h
  obtain ⟨d3, h3, h⟩ := bind_ok.1 h
  obtain ⟨d4, h4, h⟩ := bind_ok.1 h
  cases h
  have e1 : drawBands .pi pr available time pi.1 pi.2 = .ok (if pr then d1 else []) := by
    cases pr with
    | false => rfl
    | true => rw [ha rfl]; exact h1
  have e2 : drawBands .ci cr (some credible) time ci.1 ci.2 = .ok (if cr then d2 else []) := by
    cases cr with
    | false => rfl
    | true => exact h2
  have f1 : d1.filter (fun d => shownWith cr pr (d.view.map fun b => b.kind)) = if pr then d1 else [] := by
    have : ∀ d ∈ d1, shownWith cr pr (d.view.map fun b => b.kind) = pr := fun d hd => by
      obtain ⟨b, hb, hk⟩ := drawBands_kind h1 d hd
      rw [hb, Option.map_some, hk]; rfl
    rw [List.filter_congr this]
    cases pr <;> simp
  have f2 : d2.filter (fun d => shownWith cr pr (d.view.map fun b => b.kind)) = if cr then d2 else [] := by
    have : ∀ d ∈ d2, shownWith cr pr (d.view.map fun b => b.kind) = cr := fun d hd => by
      obtain ⟨b, hb, hk⟩ := drawBands_kind h2 d hd
      rw [hb, Option.map_some, hk]; rfl
    rw [List.filter_congr this]
    cases cr <;> simp
  have f3 : d3.filter (fun d => shownWith cr pr (d.view.map fun b => b.kind)) = d3 :=
    List.filter_eq_self.2 fun d hd => by rw [drawModel_view h3 d hd]; rfl
  have f4 : d4.filter (fun d => shownWith cr pr (d.view.map fun b => b.kind)) = d4 :=
    List.filter_eq_self.2 fun d hd => by rw [drawData_view h4 d hd]; rfl
  unfold plotIntervals
  rw [hci, ok_bind, hpi, ok_bind, e1, ok_bind, e2, ok_bind, h3, ok_bind, h4, ok_bind]
  refine ⟨_, rfl, ?_⟩
  simp only [List.filter_append, f1, f2, f3, f4]

/-- three samples without error variances: only the credible bands -/
example : ∃ fig fig', plotIntervals ipSamples (some ipNoisy) [0, 1] none none [50, 90] none true true true
      ipPlain ipPlain = .ok fig ∧
    plotIntervals ipSamples none [0, 1] none none [50, 90] none true true false ipPlain ipPlain = .ok fig' ∧
    fig'.drawn = fig.drawn.filter fun d => shownWith true false (d.view.map fun b => b.kind) := by
  obtain ⟨fig, _, _, _, h, -⟩ := C92_bands_partial (credible := ipSamples) (prediction := ipNoisy) (by decide)
    (by decide) (time := [0, 1]) rfl (limits := [50, 90]) (ciset := ipPlain) (piset := ipPlain) ip_valid ip_valid
    (ydata := none) (xdata := none) (fun _ h => by cases h) none true
  obtain ⟨fig', h1, h2⟩ := C92_switches h true false (available := none) (by decide)
  exact ⟨fig, fig', h, h1, h2⟩

/-! ### C93: colours -/

theorem sort_of_decreasing {l : List K} (h : l.Pairwise (· ≥ ·)) : l.insertionSort (· ≥ ·) = l :=
  (List.perm_insertionSort (· ≥ ·) l).eq_of_pairwise
    (fun _ _ _ _ h1 h2 => le_antisymm h2 h1) (List.pairwise_insertionSort _ _) h

theorem sort_of_increasing {l : List K} (h : l.Pairwise (· ≤ ·)) :
    l.insertionSort (· ≥ ·) = l.reverse :=
  ((List.perm_insertionSort (· ≥ ·) l).trans (List.reverse_perm l).symm).eq_of_pairwise
    (fun _ _ _ _ h1 h2 => le_antisymm h2 h1) (List.pairwise_insertionSort _ _)
    (List.pairwise_reverse.2 h)

theorem zip_of_maps {α β γ : Type} {l : List α} {f : α → β} {g : α → γ} :
    l.map (fun x => (f x, g x)) = (l.map f).zip (l.map g) := by
  induction l with
  | nil => rfl
  | cons a l ih => simp [ih]

/-- which colour the bands get: in the order of drawing -/
theorem drawn_colours {credible prediction : List (Fin c → K)} (hcr : 2 ≤ credible.length)
    (hpr : 2 ≤ prediction.length) {time : List K} (ht : time.length = c) {limits : List K}
    {ciset piset : IntervalSet K κ M} (hci : ValidLimits (ciset.limits.getD limits))
    (hpi : ValidLimits (piset.limits.getD limits)) {ydata xdata : Option (List K)}
    (hd : DataFits time ydata xdata) (adddata : Option Bool) (addmodel : Bool) :
    ∃ fig, ∃ pb cb : List (BandView K κ M c), ∃ ccs pcs,
      plotIntervals credible (some prediction) time ydata xdata limits adddata addmodel true true
        ciset piset = .ok fig ∧
      fig.drawn.filterMap Drawn.view = pb ++ cb ∧ (∀ b ∈ pb, b.kind = .pi) ∧
      (∀ b ∈ cb, b.kind = .ci) ∧
      cb.map (fun b => (b.limit, b.colour)) =
        ((ciset.limits.getD limits).insertionSort (· ≥ ·)).zip ccs ∧
      pb.map (fun b => (b.limit, b.colour)) =
        ((piset.limits.getD limits).insertionSort (· ≥ ·)).zip pcs ∧
      setupIntervalColors ((ciset.limits.getD limits).insertionSort (· ≥ ·)) ciset.cmap
        ciset.colors .ci = .ok ccs ∧
      setupIntervalColors ((piset.limits.getD limits).insertionSort (· ≥ ·)) piset.cmap
        piset.colors .pi = .ok pcs := by
  obtain ⟨fig, pb, cb, d1, d2, med, ccs, pcs, h, hf, v1, v2, hn, b1, b2, m, s1, s2, l1, l2, k1, k2⟩ :=
    plotIntervals_spec hcr hpr ht hci hpi hd adddata addmodel
  refine ⟨fig, pb, cb, ccs, pcs, h, ?_, b1.kind, b2.kind, ?_, ?_, s1, s2⟩
  · rw [hf, List.append_assoc, List.filterMap_append, List.filterMap_append, v1, v2]
    have hrest : ((if addmodel then [(Drawn.model time med : Drawn K κ M c)] else []) ++
        expectedData adddata time xdata ydata).filterMap Drawn.view = [] := by
      rw [List.filterMap_eq_nil_iff]
      intro d hd'
      rcases List.mem_append.1 hd' with h | h
      · split at h
        · simp only [List.mem_cons, List.not_mem_nil, or_false] at h; subst h; rfl
        · cases h
      · obtain ⟨x, y, rfl⟩ := expectedData_view h
        rfl
    rw [hrest, List.append_nil]
  · rw [zip_of_maps, l1, k1]
  · rw [zip_of_maps, l2, k2]

/-- the caller's settings for a type of interval -/
def settingsFor (kind : IntKind) (ciset piset : IntervalSet K κ M) : IntervalSet K κ M :=
  match kind with
  | .ci => ciset
  | .pi => piset

/-- the same for the bands of one type -/
theorem kind_colours {credible prediction : List (Fin c → K)} (hcr : 2 ≤ credible.length)
    (hpr : 2 ≤ prediction.length) {time : List K} (ht : time.length = c) {limits : List K}
    {ciset piset : IntervalSet K κ M} (hci : ValidLimits (ciset.limits.getD limits))
    (hpi : ValidLimits (piset.limits.getD limits)) {ydata xdata : Option (List K)}
    (hd : DataFits time ydata xdata) (adddata : Option Bool) (addmodel : Bool) (kind : IntKind) :
    ∃ fig, ∃ bs : List (BandView K κ M c), ∃ cs,
      plotIntervals credible (some prediction) time ydata xdata limits adddata addmodel true true
        ciset piset = .ok fig ∧
      ((fig.drawn.filterMap Drawn.view).filter fun b => b.kind = kind) = bs ∧
      bs.map (fun b => (b.limit, b.colour)) =
        (((settingsFor kind ciset piset).limits.getD limits).insertionSort (· ≥ ·)).zip cs ∧
      setupIntervalColors (((settingsFor kind ciset piset).limits.getD limits).insertionSort (· ≥ ·))
        (settingsFor kind ciset piset).cmap (settingsFor kind ciset piset).colors kind = .ok cs := by
  obtain ⟨fig, pb, cb, ccs, pcs, h, hf, k1, k2, e1, e2, s1, s2⟩ :=
    drawn_colours hcr hpr ht hci hpi hd adddata addmodel
  cases kind with
  | ci =>
    refine ⟨fig, cb, ccs, h, ?_, e1, s1⟩
    rw [hf, List.filter_append, List.filter_eq_nil_iff.2, List.nil_append, List.filter_eq_self.2]
    · intro b hb; simp [k2 b hb]
    · intro b hb; simp [k1 b hb]
  | pi =>
    refine ⟨fig, pb, pcs, h, ?_, e2, s2⟩
    rw [hf, List.filter_append, List.filter_eq_self.2, List.filter_eq_nil_iff.2, List.append_nil]
    · intro b hb; simp [k2 b hb]
    · intro b hb; simp [k1 b hb]

theorem settings_valid {limits : List K} {ciset piset : IntervalSet K κ M}
    (hci : ValidLimits (ciset.limits.getD limits)) (hpi : ValidLimits (piset.limits.getD limits)) (kind : IntKind) :
    ValidLimits ((settingsFor kind ciset piset).limits.getD limits) := by
  cases kind <;> assumption

/-- **C93, full statement:** the `k`-th colour in `ciset['colors']` (`piset['colors']`) is the colour
of the interval of the `k`-th limit in `ciset['limits']` (`piset['limits']`), if there are as many
colours as limits.
**Proved here** when the limits are given in decreasing order; see `C93_order_refuted`. -/
theorem C93_user_partial {credible prediction : List (Fin c → K)} (hcr : 2 ≤ credible.length)
    (hpr : 2 ≤ prediction.length) {time : List K} (ht : time.length = c) {limits : List K}
    {ciset piset : IntervalSet K κ M} (hci : ValidLimits (ciset.limits.getD limits))
    (hpi : ValidLimits (piset.limits.getD limits)) {ydata xdata : Option (List K)}
    (hd : DataFits time ydata xdata) (adddata : Option Bool) (addmodel : Bool) (kind : IntKind) {u : List κ}
    (hu : (settingsFor kind ciset piset).colors = some u)
    (hl : u.length = ((settingsFor kind ciset piset).limits.getD limits).length)
    (hs : ((settingsFor kind ciset piset).limits.getD limits).Pairwise (· ≥ ·)) :
    ∃ fig, ∃ bs : List (BandView K κ M c),
      plotIntervals credible (some prediction) time ydata xdata limits adddata addmodel true true
        ciset piset = .ok fig ∧
      ((fig.drawn.filterMap Drawn.view).filter fun b => b.kind = kind) = bs ∧
      bs.map (fun b => (b.limit, b.colour)) =
        ((settingsFor kind ciset piset).limits.getD limits).zip (u.map .user) := by
  obtain ⟨fig, bs, cs, h, hf, e, s1⟩ := kind_colours hcr hpr ht hci hpi hd adddata addmodel kind
  have hv := settings_valid hci hpi kind
  refine ⟨fig, bs, h, hf, ?_⟩
  rw [e, sort_of_decreasing hs]
  rw [sort_of_decreasing hs] at s1
  obtain ⟨cs', h1, h2⟩ := colours_ok hv.1 (settingsFor kind ciset piset).cmap
    (settingsFor kind ciset piset).colors kind
  rw [s1] at h1
  cases h1
  rw [h2 u hu hl]

example := C93_user_partial (credible := ipSamples) (prediction := ipNoisy) (by decide) (by decide)
  (time := [0, 1]) rfl (limits := [50, 90]) (ciset := ⟨some [90, 50], none, some [11, 12]⟩)
  (piset := ipPlain) ip_valid ip_valid ip_fits none true .ci (u := [11, 12]) rfl rfl (by decide +kernel)

/-- **Refutation of C93 for increasing limits** (the form `limits=[50, 90]` of the documentation):
the colours are used in the opposite order, so the interval of the first limit has the last
colour. -/
theorem C93_order_refuted {credible prediction : List (Fin c → K)} (hcr : 2 ≤ credible.length)
    (hpr : 2 ≤ prediction.length) {time : List K} (ht : time.length = c) {limits : List K}
    {ciset piset : IntervalSet K κ M} (hci : ValidLimits (ciset.limits.getD limits))
    (hpi : ValidLimits (piset.limits.getD limits)) {ydata xdata : Option (List K)}
    (hd : DataFits time ydata xdata) (adddata : Option Bool) (addmodel : Bool) (kind : IntKind) {u : List κ}
    (hu : (settingsFor kind ciset piset).colors = some u)
    (hl : u.length = ((settingsFor kind ciset piset).limits.getD limits).length)
    (hs : ((settingsFor kind ciset piset).limits.getD limits).Pairwise (· < ·)) :
    ∃ fig, ∃ bs : List (BandView K κ M c),
      plotIntervals credible (some prediction) time ydata xdata limits adddata addmodel true true
        ciset piset = .ok fig ∧
      ((fig.drawn.filterMap Drawn.view).filter fun b => b.kind = kind) = bs ∧
      bs.map (fun b => (b.limit, b.colour)) =
        ((settingsFor kind ciset piset).limits.getD limits).reverse.zip (u.map .user) ∧
      ∃ b ∈ bs, some b.limit = ((settingsFor kind ciset piset).limits.getD limits).head? ∧
        some b.colour = (u.map Colour.user).getLast? := by
  obtain ⟨fig, cb, cs, h, hf, e, s1⟩ := kind_colours hcr hpr ht hci hpi hd adddata addmodel kind
  have hv := settings_valid hci hpi kind
  have hs' := hs.imp fun hab => le_of_lt hab
  have hne : ((settingsFor kind ciset piset).limits.getD limits).reverse ≠ [] := by
    simpa using hv.1
  rw [sort_of_increasing hs'] at s1 e
  obtain ⟨cs', h1, h2⟩ := colours_ok hne (settingsFor kind ciset piset).cmap
    (settingsFor kind ciset piset).colors kind
  rw [s1] at h1
  cases h1
  rw [h2 u hu (by simpa using hl)] at e
  refine ⟨fig, cb, h, hf, e, ?_⟩
  generalize (settingsFor kind ciset piset).limits.getD limits = L at *
  have hpos : 0 < L.length := List.length_pos_iff.2 hv.1
  have hk := congrArg (fun l => l[L.length - 1]?) e
  simp only [List.getElem?_map] at hk
  have hz : (L.reverse.zip (u.map (Colour.user (K := K) (M := M))))[L.length - 1]? =
      some (L[0], Colour.user u[L.length - 1]) := by
    rw [List.getElem?_eq_getElem (by simp; omega), List.getElem_zip]
    simp
  rw [hz, Option.map_eq_some_iff] at hk
  obtain ⟨b, hb, hb'⟩ := hk
  simp only [Prod.mk.injEq] at hb'
  refine ⟨b, List.mem_of_getElem? hb, ?_, ?_⟩
  · rw [hb'.1, List.head?_eq_getElem?, List.getElem?_eq_getElem hpos]
  · have hul : u.length - 1 = L.length - 1 := by rw [hl]
    rw [hb'.2, List.getLast?_eq_getElem?, List.length_map, hul,
      List.getElem?_eq_getElem (by simp; omega), List.getElem_map]

example := C93_order_refuted (credible := ipSamples) (prediction := ipNoisy) (by decide) (by decide)
  (time := [0, 1]) rfl (limits := [50, 90]) (ciset := ipPlain)
  (piset := ⟨none, none, some [11, 12]⟩) ip_valid ip_valid ip_fits none true .pi (u := [11, 12]) rfl rfl
  (by decide +kernel)

theorem norm_spec {l : List K} (h : ValidLimits l) {norm : K → K} (hn : setupCmapNorm l = .ok norm) :
    (∀ a ∈ l, 0 ≤ norm a ∧ norm a ≤ 1) ∧ ∀ a ∈ l, ∀ b ∈ l, a < b → norm a < norm b := by
  have key : ∀ lo hi : K, (∀ a ∈ l, lo ≤ a ∧ a ≤ hi) →
      (∀ a ∈ l, 0 ≤ normalize lo hi a ∧ normalize lo hi a ≤ 1) ∧
      ∀ a ∈ l, ∀ b ∈ l, a < b → normalize lo hi a < normalize lo hi b := by
    intro lo hi hb
    unfold normalize
    constructor
    · intro a ha
      obtain ⟨h1, h2⟩ := hb a ha
      split
      · exact ⟨le_refl _, zero_le_one⟩
      · rename_i hne
        have hlt : lo < hi := lt_of_le_of_ne (h1.trans h2) hne
        exact ⟨div_nonneg (by linarith) (by linarith),
          (div_le_one (by linarith)).2 (by linarith)⟩
    · intro a ha b hb' hab
      have hlt : lo < hi := (hb a ha).1.trans_lt (hab.trans_le (hb b hb').2)
      rw [if_neg hlt.ne, if_neg hlt.ne]
      exact div_lt_div_of_pos_right (by linarith) (by linarith)
  match l, h, hn with
  | [a], h, hn =>
    cases hn
    exact key 0 100 h.2
  | a :: b :: l, h, hn =>
    cases hn
    exact key _ _ fun v hv =>
      ⟨(foldl_min_spec (b :: l) a).1 v hv, (foldl_max_spec (b :: l) a).1 v hv⟩

/-- the documented colour maps: the user's, else `autumn` for credible, `winter` for prediction intervals -/
def mapFor : IntKind → Option M → CMap M
  | _, some m => .user m
  | .ci, none => .autumn
  | .pi, none => .winter

/-- **C93.** Without user colours, or with a wrong number of them, the colours come from the user's
colour map or the default one of the type, at a position between 0 and 1; different limits have
different colours, larger limits further along the map. -/
theorem C93_map {credible prediction : List (Fin c → K)} (hcr : 2 ≤ credible.length)
    (hpr : 2 ≤ prediction.length) {time : List K} (ht : time.length = c) {limits : List K}
    {ciset piset : IntervalSet K κ M} (hci : ValidLimits (ciset.limits.getD limits))
    (hpi : ValidLimits (piset.limits.getD limits)) {ydata xdata : Option (List K)}
    (hd : DataFits time ydata xdata) (adddata : Option Bool) (addmodel : Bool) (kind : IntKind)
    (hu : ∀ u, (settingsFor kind ciset piset).colors = some u →
      u.length ≠ ((settingsFor kind ciset piset).limits.getD limits).length) :
    ∃ fig, ∃ bs : List (BandView K κ M c), ∃ pos : K → K,
      plotIntervals credible (some prediction) time ydata xdata limits adddata addmodel true true
        ciset piset = .ok fig ∧
      ((fig.drawn.filterMap Drawn.view).filter fun b => b.kind = kind) = bs ∧
      (∀ b ∈ bs, b.colour = .mapped (mapFor kind (settingsFor kind ciset piset).cmap) (pos b.limit) ∧
        0 ≤ pos b.limit ∧ pos b.limit ≤ 1) ∧
      ∀ b ∈ bs, ∀ b' ∈ bs, b.limit < b'.limit → pos b.limit < pos b'.limit := by
  obtain ⟨fig, cb, ccs, h, hf, e, s1⟩ := kind_colours hcr hpr ht hci hpi hd adddata addmodel kind
  have hv := settings_valid hci hpi kind
  have hsv := sorted_valid hv
  have hlen : (((settingsFor kind ciset piset).limits.getD limits).insertionSort (· ≥ ·)).length =
      ((settingsFor kind ciset piset).limits.getD limits).length := (List.perm_insertionSort _ _).length_eq
  generalize ((settingsFor kind ciset piset).limits.getD limits).insertionSort (· ≥ ·) = L at *
  generalize settingsFor kind ciset piset = iset at *
  unfold setupIntervalColors at s1
  obtain ⟨norm, hn, s1⟩ := bind_ok.1 s1
  have hcs : ccs = L.map fun l => Colour.mapped (setupDefaultCmap iset.cmap kind) (norm l) := by
    split at s1
    · cases s1; rfl
    · rename_i u hu'
      rw [if_neg (by rw [hlen]; exact hu u hu')] at s1
      cases s1; rfl
  obtain ⟨n1, n2⟩ := norm_spec hsv hn
  have hcm : setupDefaultCmap iset.cmap kind = mapFor kind iset.cmap := by
    unfold setupDefaultCmap mapFor
    cases iset.cmap <;> cases kind <;> rfl
  have hb : ∀ b ∈ cb, b.limit ∈ L ∧
      b.colour = .mapped (setupDefaultCmap iset.cmap kind) (norm b.limit) := by
    intro b hb
    have hm : (b.limit, b.colour) ∈ cb.map fun b => (b.limit, b.colour) :=
      List.mem_map_of_mem (f := fun b : BandView K κ M c => (b.limit, b.colour)) hb
    rw [e, hcs] at hm
    have hz : L.zip (L.map fun l => Colour.mapped (κ := κ) (setupDefaultCmap iset.cmap kind)
        (norm l)) = L.map fun l => (l, Colour.mapped (setupDefaultCmap iset.cmap kind) (norm l)) := by
      rw [zip_of_maps (f := fun l => l), List.map_id']
    rw [hz] at hm
    obtain ⟨l, hl, he⟩ := List.mem_map.1 hm
    simp only [Prod.mk.injEq] at he
    rw [← he.1, ← he.2]
    exact ⟨hl, rfl⟩
  refine ⟨fig, cb, norm, h, hf, fun b hb' => ⟨?_, n1 _ (hb b hb').1⟩,
    fun b hb1 b' hb2 hlt => n2 _ (hb b hb1).1 _ (hb b' hb2).1 hlt⟩
  rw [(hb b hb').2, hcm]

example := C93_map (credible := ipSamples) (prediction := ipNoisy) (by decide) (by decide)
  (time := [0, 1]) rfl (limits := [50, 90, 95]) (ciset := ⟨none, some 3, some [11, 12]⟩)
  (piset := ipPlain) ip_valid ip_valid ip_fits none true .ci (by rintro u hu; cases hu; decide)

/-! ### C95: observations, and the figure in space -/

/-- **C95.** `plot_intervals` shows the observations exactly when there are some and
`adddata` is not `False`: each at its own position if `xdata` is given, else at the times. -/
theorem C95_plane {credible prediction : List (Fin c → K)} (hcr : 2 ≤ credible.length)
    (hpr : 2 ≤ prediction.length) {time : List K} (ht : time.length = c) {limits : List K}
    {ciset piset : IntervalSet K κ M} (hci : ValidLimits (ciset.limits.getD limits))
    (hpi : ValidLimits (piset.limits.getD limits)) {ydata xdata : Option (List K)}
    (hd : DataFits time ydata xdata) (adddata : Option Bool) (addmodel : Bool) :
    ∃ fig, plotIntervals credible (some prediction) time ydata xdata limits adddata addmodel true
        true ciset piset = .ok fig ∧
      ∀ x y, Drawn.data x y ∈ fig.drawn ↔
        ydata = some y ∧ adddata ≠ some false ∧ x = xdata.getD time := by
  obtain ⟨fig, pb, cb, d1, d2, med, ccs, pcs, h, hf, v1, v2, hn, -⟩ :=
    plotIntervals_spec hcr hpr ht hci hpi hd adddata addmodel
  refine ⟨fig, h, fun x y => ?_⟩
  rw [hf, List.mem_append, List.mem_append]
  constructor
  · rintro ((h' | h') | h')
    · exact absurd rfl (hn _ h')
    · split at h'
      · simp at h'
      · cases h'
    · unfold expectedData at h'
      split at h'
      · cases h'
      · split at h'
        · cases h'
        · rename_i ha
          simp only [List.mem_cons, List.not_mem_nil, or_false, Drawn.data.injEq] at h'
          exact ⟨by rw [h'.2], ha, h'.1⟩
  · rintro ⟨rfl, ha, rfl⟩
    right
    simp [expectedData, ha]

example := C95_plane (credible := ipSamples) (prediction := ipNoisy) (by decide) (by decide)
  (time := [0, 1]) rfl (limits := [50, 90]) (ciset := ipPlain) (piset := ipPlain)
  ip_valid ip_valid ip_fits none false

/-- what a caller can read off a polygon -/
structure PolygonView (K κ M : Type) where
  kind : IntKind
  limit : K
  colour : Colour K κ M
  verts : List ((K × K) × K)

/-- the polygon of a drawing -/
def Drawn3.view : Drawn3 K κ M → Option (PolygonView K κ M)
  | .polygon kind limit colour verts => some ⟨kind, limit, colour, verts⟩
  | _ => none

/-- the polygons a user expects: one per limit, the wider ones first; each runs along the lower
quantile over the points of `time`, and back along the upper one -/
structure Polygons (kind : IntKind) (x : List (Fin c → K)) (time : List (K × K)) (limits : List K)
    (bs : List (PolygonView K κ M)) : Prop where
  kind : ∀ b ∈ bs, b.kind = kind
  limits : (bs.map fun b => b.limit).Perm limits
  wide_first : (bs.map fun b => b.limit).Pairwise (· ≥ ·)
  verts : ∀ b ∈ bs, ∃ lo hi : Fin c → K,
    empiricalQuantiles x [(1 - b.limit / 100) / 2, 1 - (1 - b.limit / 100) / 2] = .ok [lo, hi] ∧
    b.verts = time.zip (List.ofFn lo) ++ (time.zip (List.ofFn hi)).reverse

theorem polygon_eq {time : List (K × K)} (ht : time.length = c) (lo hi : Fin c → K) :
    polygonOf time lo hi = time.zip (List.ofFn lo) ++ (time.zip (List.ofFn hi)).reverse := by
  unfold polygonOf
  rw [List.take_of_length_le (by simp [ht]), List.zip_append (by simp [ht]),
    List.zip, List.reverse_zipWith (by simp [ht])]

theorem drawPolygons_ok {x : List (Fin c → K)} (hn : 2 ≤ x.length) {time : List (K × K)}
    (ht : time.length = c) {limits : List K} {iset : IntervalSet K κ M}
    (h : ValidLimits (iset.limits.getD limits)) (kind : IntKind) {cs : List (Colour K κ M)}
    (hc : cs.length = ((iset.limits.getD limits).insertionSort (· ≥ ·)).length) :
    ∃ ds, ∃ bs : List (PolygonView K κ M), drawPolygons kind true (some x) time
        ((iset.limits.getD limits).insertionSort (· ≥ ·)) cs = .ok ds ∧
      ds.filterMap Drawn3.view = bs ∧ (∀ d ∈ ds, d.view ≠ none) ∧
      Polygons kind x time (iset.limits.getD limits) bs := by
  obtain ⟨bs, hb, h1, h2, h3⟩ := bandCurves_ok hn (sorted_valid h).2 hc
  refine ⟨bs.map fun b => .polygon kind b.1 b.2.1 (polygonOf time b.2.2.1 b.2.2.2),
    bs.map fun b => ⟨kind, b.1, b.2.1, polygonOf time b.2.2.1 b.2.2.2⟩, ?_, ?_, ?_,
    ⟨?_, ?_, ?_, ?_⟩⟩
  · unfold drawPolygons samplesOf
    rw [if_neg (by simp)]
    simp only [orRaise, ok_bind]
    rw [hb, ok_bind, if_neg (by omega)]
  · rw [List.filterMap_map, ← List.filterMap_eq_map]
    rfl
  · intro d hd
    obtain ⟨b, -, rfl⟩ := List.mem_map.1 hd
    simp [Drawn3.view]
  · intro b hb'
    obtain ⟨z, -, rfl⟩ := List.mem_map.1 hb'
    rfl
  · rw [List.map_map]
    have : (bs.map ((fun b : PolygonView K κ M => b.limit) ∘ fun b =>
        (⟨kind, b.1, b.2.1, polygonOf time b.2.2.1 b.2.2.2⟩ : PolygonView K κ M))) =
        bs.map fun b => b.1 := rfl
    rw [this, h1]
    exact List.perm_insertionSort _ _
  · rw [List.map_map]
    have : (bs.map ((fun b : PolygonView K κ M => b.limit) ∘ fun b =>
        (⟨kind, b.1, b.2.1, polygonOf time b.2.2.1 b.2.2.2⟩ : PolygonView K κ M))) =
        bs.map fun b => b.1 := rfl
    rw [this, h1]
    exact List.pairwise_insertionSort _ _
  · intro b hb'
    obtain ⟨z, hz, rfl⟩ := List.mem_map.1 hb'
    exact ⟨_, _, h3 z hz, polygon_eq ht _ _⟩

/-- **C92 and C95 for `plot_3d_intervals`, full statement:** as for `plot_intervals`: prediction
polygons, credible polygons, median curve, and the observations at `xdata` if given, else at the
times.  **Proved here** when there are as many observations as times, or none; see `C95_space_refuted`
and `C95_space_none_refuted`. -/
theorem C95_space_partial {credible prediction : List (Fin c → K)} (hcr : 2 ≤ credible.length)
    (hpr : 2 ≤ prediction.length) {time : List (K × K)} (ht : time.length = c) {limits : List K}
    {ciset piset : IntervalSet K κ M} (hci : ValidLimits (ciset.limits.getD limits))
    (hpi : ValidLimits (piset.limits.getD limits)) {ydata : Option (List K)} {xdata : Option (List (K × K))}
    {adddata : Option Bool} (hy : ∀ y, ydata = some y → y.length = time.length ∧
      (xdata.getD time).length = y.length) (hno : ydata = none → adddata ≠ some true) (addmodel : Bool) :
    ∃ fig, ∃ pb cb : List (PolygonView K κ M), ∃ med : Fin c → K,
      plot3dIntervals credible (some prediction) time ydata xdata limits adddata addmodel true
        true ciset piset = .ok fig ∧
      fig.drawn.filterMap Drawn3.view = pb ++ cb ∧
      Polygons .pi prediction time (piset.limits.getD limits) pb ∧
      Polygons .ci credible time (ciset.limits.getD limits) cb ∧
      empiricalQuantiles credible [1 / 2] = .ok [med] ∧
      (∀ pts, Drawn3.model pts ∈ fig.drawn ↔ addmodel = true ∧ pts = time.zip (List.ofFn med)) ∧
      ∀ pts, Drawn3.data pts ∈ fig.drawn ↔
        ∃ y, ydata = some y ∧ adddata ≠ some false ∧ pts = (xdata.getD time).zip y := by
  obtain ⟨ccs, c1, c2, c3⟩ := setupIset_ok hci .ci
  obtain ⟨pcs, p1, p2, p3⟩ := setupIset_ok hpi .pi
  obtain ⟨d1, pb, e1, v1, n1, b1⟩ := drawPolygons_ok hpr ht hpi .pi p2
  obtain ⟨d2, cb, e2, v2, n2, b2⟩ := drawPolygons_ok hcr ht hci .ci c2
  obtain ⟨med, m1, m2⟩ := median_ok hcr
  have hm : drawModel3 (κ := κ) (M := M) addmodel credible time =
      .ok (if addmodel then [.model (time.zip (List.ofFn med))] else []) := by
    unfold drawModel3
    cases addmodel with
    | false => rfl
    | true =>
      rw [if_neg (by simp), m2, ok_bind]
      unfold sameLength
      rw [if_pos ht, ok_bind]
      rfl
  obtain ⟨obs, hobs⟩ : ∃ obs : List (Drawn3 K κ M), obs = match ydata with
      | none => []
      | some y => if adddata = some false then [] else [.data ((xdata.getD time).zip y)] := ⟨_, rfl⟩
  have hdd : drawData3 (κ := κ) (M := M) adddata time xdata ydata = .ok obs := by
    subst hobs
    unfold drawData3
    cases ydata with
    | none =>
      rcases adddata with _ | _ | _
      · simp
      · simp
      · exact absurd rfl (hno rfl)
    | some y =>
      obtain ⟨hy, hx⟩ := hy y rfl
      rcases adddata with _ | _ | _
      · simp [orRaise, sameLength, hy, hx, ok_bind]
      · simp
      · simp [orRaise, sameLength, hy, hx, ok_bind]
  have hmem : ∀ d ∈ obs, ∃ y, ydata = some y ∧ adddata ≠ some false ∧ d = .data ((xdata.getD time).zip y) := by
    intro d hd
    rw [hobs] at hd
    cases ydata with
    | none => cases hd
    | some y =>
      dsimp only at hd
      split at hd
      · cases hd
      · rename_i ha
        simp only [List.mem_cons, List.not_mem_nil, or_false] at hd
        exact ⟨y, rfl, ha, hd⟩
  refine ⟨⟨d1 ++ d2 ++ (if addmodel then [.model (time.zip (List.ofFn med))] else []) ++
      obs,
    limitsAfter limits ciset piset, isetLimitsAfter ciset, isetLimitsAfter piset⟩, pb, cb,
    med, ?_, ?_, b1, b2, m1, ?_, ?_⟩
  · unfold plot3dIntervals
    rw [c1, ok_bind, p1, ok_bind]
    dsimp only
    rw [e1, ok_bind, e2, ok_bind, hm, ok_bind, hdd, ok_bind]
  · dsimp only
    rw [List.filterMap_append, List.filterMap_append, List.filterMap_append, v1, v2]
    have r1 : (if addmodel then [(Drawn3.model (time.zip (List.ofFn med)) : Drawn3 K κ M)]
        else []).filterMap Drawn3.view = [] := by cases addmodel <;> rfl
    have r2 : obs.filterMap Drawn3.view = [] := by
      rw [List.filterMap_eq_nil_iff]
      intro d hd
      obtain ⟨y, -, -, rfl⟩ := hmem d hd
      rfl
    rw [r1, r2, List.append_nil, List.append_nil]
  · intro pts
    simp only [List.mem_append]
    constructor
    · rintro (((h' | h') | h') | h')
      · exact absurd rfl (n1 _ h')
      · exact absurd rfl (n2 _ h')
      · split at h'
        · rename_i ha
          simp at h'
          exact ⟨ha, h'⟩
        · cases h'
      · obtain ⟨y, -, -, hc⟩ := hmem _ h'
        cases hc
    · rintro ⟨rfl, rfl⟩
      simp
  · intro pts
    simp only [List.mem_append]
    constructor
    · rintro (((h' | h') | h') | h')
      · exact absurd rfl (n1 _ h')
      · exact absurd rfl (n2 _ h')
      · split at h' <;> simp at h'
      · obtain ⟨y, h1, h2, hc⟩ := hmem _ h'
        cases hc
        exact ⟨y, h1, h2, rfl⟩
    · rintro ⟨y, rfl, ha, rfl⟩
      simp [hobs, ha]

example := C95_space_partial (credible := ipSamples) (prediction := ipNoisy) (by decide) (by decide)
  (time := [(0, 2), (1, 3)]) rfl (limits := [50, 90]) (ciset := ipPlain) (piset := ipPlain)
  ip_valid ip_valid (ydata := some [4, 5]) (xdata := some [(0, 1), (1, 1)]) (adddata := some true)
  (by rintro y hy; cases hy; exact ⟨rfl, rfl⟩) (by rintro ⟨⟩) true

/-- **Refutation of C95 for `plot_3d_intervals` without observations:** with `adddata=True` the call raises, where
`plot_intervals` (`C95_plane`) shows the figure without observations. -/
theorem C95_space_none_refuted {credible prediction : List (Fin c → K)} (hcr : 2 ≤ credible.length)
    (hpr : 2 ≤ prediction.length) {time : List (K × K)} (ht : time.length = c) {limits : List K}
    {ciset piset : IntervalSet K κ M} (hci : ValidLimits (ciset.limits.getD limits))
    (hpi : ValidLimits (piset.limits.getD limits)) (xdata : Option (List (K × K))) (addmodel : Bool) :
    plot3dIntervals credible (some prediction) time none xdata limits (some true) addmodel true
      true ciset piset = .error .attributeError := by
  obtain ⟨ccs, c1, c2, c3⟩ := setupIset_ok hci .ci
  obtain ⟨pcs, p1, p2, p3⟩ := setupIset_ok hpi .pi
  obtain ⟨d1, pb, e1, -⟩ := drawPolygons_ok hpr ht hpi .pi p2
  obtain ⟨d2, cb, e2, -⟩ := drawPolygons_ok hcr ht hci .ci c2
  obtain ⟨med, m1, m2⟩ := median_ok hcr
  have hm : drawModel3 (κ := κ) (M := M) addmodel credible time =
      .ok (if addmodel then [.model (time.zip (List.ofFn med))] else []) := by
    unfold drawModel3
    cases addmodel with
    | false => rfl
    | true =>
      rw [if_neg (by simp), m2, ok_bind]
      unfold sameLength
      rw [if_pos ht, ok_bind]
      rfl
  unfold plot3dIntervals
  rw [c1, ok_bind, p1, ok_bind]
  dsimp only
  rw [e1, ok_bind, e2, ok_bind, hm, ok_bind]
  rfl

example := C95_space_none_refuted (credible := ipSamples) (prediction := ipNoisy) (by decide) (by decide)
  (time := [(0, 2), (1, 3)]) rfl (limits := [50, 90]) (ciset := ipPlain) (piset := ipPlain)
  ip_valid ip_valid none true

theorem drawPolygons_kind {kind : IntKind} {on : Bool} {x : Option (List (Fin c → K))} {time : List (K × K)}
    {limits : List K} {cs : List (Colour K κ M)} {ds : List (Drawn3 K κ M)}
    (h : drawPolygons kind on x time limits cs = .ok ds) : ∀ d ∈ ds, ∃ b, d.view = some b ∧ b.kind = kind := by
  unfold drawPolygons at h
  split at h
  · cases h; simp
  · obtain ⟨x', -, h⟩ := bind_ok.1 h
    obtain ⟨bs, -, h⟩ := bind_ok.1 h
    split at h
    · cases h
    · cases h
      intro d hd
      obtain ⟨b, -, rfl⟩ := List.mem_map.1 hd
      exact ⟨_, rfl, rfl⟩

theorem drawModel3_view {on : Bool} {credible : List (Fin c → K)} {time : List (K × K)} {ds : List (Drawn3 K κ M)}
    (h : drawModel3 on credible time = .ok ds) : ∀ d ∈ ds, d.view = none := by
  unfold drawModel3 at h
  split at h
  · cases h; simp
  · obtain ⟨y, -, h⟩ := bind_ok.1 h
    obtain ⟨_, -, h⟩ := bind_ok.1 h
    cases h
    simp [Drawn3.view]

theorem drawData3_view {adddata : Option Bool} {time : List (K × K)} {xdata : Option (List (K × K))}
    {ydata : Option (List K)} {ds : List (Drawn3 K κ M)} (h : drawData3 adddata time xdata ydata = .ok ds) :
    ∀ d ∈ ds, d.view = none := by
  unfold drawData3 at h
  dsimp only at h
  generalize (if (ydata.isSome && adddata.isNone) = true then some true else adddata) = flag at h
  split at h
  · obtain ⟨y, -, h⟩ := bind_ok.1 h
    obtain ⟨_, -, h⟩ := bind_ok.1 h
    obtain ⟨_, -, h⟩ := bind_ok.1 h
    cases h
    simp [Drawn3.view]
  · cases h; simp

theorem same_bands {kind : IntKind} {on : Bool} {x : Option (List (Fin c → K))} {time limits : List K}
    {time3 : List (K × K)} {cs : List (Colour K κ M)} {ds : List (Drawn K κ M c)} {ds3 : List (Drawn3 K κ M)}
    (h : drawBands kind on x time limits cs = .ok ds) (h3 : drawPolygons kind on x time3 limits cs = .ok ds3) :
    (ds3.filterMap Drawn3.view).map (fun b => (b.kind, b.limit, b.colour)) =
      (ds.filterMap Drawn.view).map (fun b => (b.kind, b.limit, b.colour)) := by
  unfold drawBands at h
  unfold drawPolygons at h3
  split at h
  · rename_i hon
    rw [if_pos hon] at h3
    cases h
    cases h3
    rfl
  · rename_i hon
    rw [if_neg hon] at h3
    obtain ⟨y, hy, h⟩ := bind_ok.1 h
    obtain ⟨bs, hb, h⟩ := bind_ok.1 h
    obtain ⟨-, -, h⟩ := bind_ok.1 h
    obtain ⟨y', hy', h3⟩ := bind_ok.1 h3
    obtain ⟨bs', hb', h3⟩ := bind_ok.1 h3
    rw [hy] at hy'
    cases hy'
    rw [hb] at hb'
    cases hb'
    split at h3
    · cases h3
    · cases h
      cases h3
      rw [List.filterMap_map, List.filterMap_map]
      have e1 : (Drawn3.view ∘ fun b : K × Colour K κ M × (Fin c → K) × (Fin c → K) =>
          Drawn3.polygon kind b.1 b.2.1 (polygonOf time3 b.2.2.1 b.2.2.2)) =
          fun b => some ⟨kind, b.1, b.2.1, polygonOf time3 b.2.2.1 b.2.2.2⟩ := rfl
      have e2 : (Drawn.view ∘ fun b : K × Colour K κ M × (Fin c → K) × (Fin c → K) =>
          Drawn.band kind b.1 b.2.1 time b.2.2.1 b.2.2.2) =
          fun b => some ⟨kind, b.1, b.2.1, time, b.2.2.1, b.2.2.2⟩ := rfl
      rw [e1, e2, List.filterMap_eq_map', List.filterMap_eq_map', List.map_map, List.map_map]
      rfl

/-- **C93 for `plot_3d_intervals`:** its polygons have the types, limits and colours of the bands which
`plot_intervals` draws with the same settings, in the same order. -/
theorem C93_space {credible prediction : List (Fin c → K)} {time : List K} {time3 : List (K × K)} {limits : List K}
    {ciset piset : IntervalSet K κ M} {ydata xdata ydata3 : Option (List K)} {xdata3 : Option (List (K × K))}
    {adddata adddata3 : Option Bool} {addmodel addmodel3 cr pr : Bool} {fig : IntervalFigure K (Drawn K κ M c)}
    {fig3 : IntervalFigure K (Drawn3 K κ M)}
    (h : plotIntervals credible (some prediction) time ydata xdata limits adddata addmodel cr pr ciset piset = .ok fig)
    (h3 : plot3dIntervals credible (some prediction) time3 ydata3 xdata3 limits adddata3 addmodel3 cr pr ciset piset =
      .ok fig3) :
    (fig3.drawn.filterMap Drawn3.view).map (fun b => (b.kind, b.limit, b.colour)) =
      (fig.drawn.filterMap Drawn.view).map (fun b => (b.kind, b.limit, b.colour)) := by
  unfold plotIntervals at h
  unfold plot3dIntervals at h3
  obtain ⟨ci, s1, h⟩ := bind_ok.1 h
  obtain ⟨pi, s2, h⟩ := bind_ok.1 h
  obtain ⟨d1, e1, h⟩ := bind_ok.1 h
  obtain ⟨d2, e2, h⟩ := bind_ok.1 h
  obtain ⟨d3, e3, h⟩ := bind_ok.1 h
  obtain ⟨d4, e4, h⟩ := bind_ok.1 h
  obtain ⟨ci', s1', h3⟩ := bind_ok.1 h3
  obtain ⟨pi', s2', h3⟩ := bind_ok.1 h3
  obtain ⟨f1, g1, h3⟩ := bind_ok.1 h3
  obtain ⟨f2, g2, h3⟩ := bind_ok.1 h3
  obtain ⟨f3, g3, h3⟩ := bind_ok.1 h3
  obtain ⟨f4, g4, h3⟩ := bind_ok.1 h3
  cases h
  cases h3
  rw [s1] at s1'
  rw [s2] at s2'
  cases s1'
  cases s2'
  dsimp only
  have n3 : d3.filterMap Drawn.view = [] := List.filterMap_eq_nil_iff.2 (drawModel_view e3)
  have n4 : d4.filterMap Drawn.view = [] := List.filterMap_eq_nil_iff.2 (drawData_view e4)
  have n3' : f3.filterMap Drawn3.view = [] := List.filterMap_eq_nil_iff.2 (drawModel3_view g3)
  have n4' : f4.filterMap Drawn3.view = [] := List.filterMap_eq_nil_iff.2 (drawData3_view g4)
  simp only [List.filterMap_append, n3, n4, n3', n4', List.append_nil, List.map_append]
  rw [same_bands e1 g1, same_bands e2 g2]

example : ∃ fig fig3, plotIntervals ipSamples (some ipNoisy) [0, 1] (some [3, 4, 5]) (some [0, 1, 2]) [50, 90] none
      true true true ipPlain ipPlain = .ok fig ∧
    plot3dIntervals ipSamples (some ipNoisy) [(0, 2), (1, 3)] (some [4, 5]) none [50, 90] none true true true
      ipPlain ipPlain = .ok fig3 ∧
    (fig3.drawn.filterMap Drawn3.view).map (fun b => (b.kind, b.limit, b.colour)) =
      (fig.drawn.filterMap Drawn.view).map (fun b => (b.kind, b.limit, b.colour)) := by
  obtain ⟨fig, pb, cb, med, h, -⟩ := C92_bands_partial (credible := ipSamples) (prediction := ipNoisy) (by decide)
    (by decide) (time := [0, 1]) rfl (limits := [50, 90]) (ciset := ipPlain) (piset := ipPlain)
    ip_valid ip_valid ip_fits none true
  obtain ⟨fig3, pb3, cb3, med3, h3, -⟩ := C95_space_partial (credible := ipSamples) (prediction := ipNoisy) (by decide)
    (by decide) (time := [(0, 2), (1, 3)]) rfl (limits := [50, 90]) (ciset := ipPlain) (piset := ipPlain)
    ip_valid ip_valid (ydata := some [4, 5]) (xdata := none) (adddata := none)
    (by rintro y hy; cases hy; exact ⟨rfl, rfl⟩) (by rintro ⟨⟩) true
  exact ⟨fig, fig3, h, h3, C93_space h h3⟩

/-- **C95, the switches of `plot_3d_intervals`:** with `addcredible` or `addprediction` set to `False` it draws what
it draws otherwise except the polygons of that type. -/
theorem C95_space_switches {credible : List (Fin c → K)} {prediction : Option (List (Fin c → K))}
    {time : List (K × K)} {limits : List K}
    {ciset piset : IntervalSet K κ M} {ydata : Option (List K)} {xdata : Option (List (K × K))}
    {adddata : Option Bool} {addmodel : Bool} {fig : IntervalFigure K (Drawn3 K κ M)}
    (h : plot3dIntervals credible prediction time ydata xdata limits adddata addmodel true true ciset piset = .ok fig)
    (cr pr : Bool) {available : Option (List (Fin c → K))} (ha : pr = true → available = prediction) :
    ∃ fig', plot3dIntervals credible available time ydata xdata limits adddata addmodel cr pr ciset piset = .ok fig' ∧
      fig'.drawn = fig.drawn.filter fun d => shownWith cr pr (d.view.map fun b => b.kind) := by
  unfold plot3dIntervals at h
  obtain ⟨ci, hci, h⟩ := bind_ok.1 h
  obtain ⟨pi, hpi, h⟩ := bind_ok.1 h
  obtain ⟨d1, h1, h⟩ := bind_ok.1 h
  obtain ⟨d2, h2, h⟩ := bind_ok.1 h
  obtain ⟨d3, h3, h⟩ := bind_ok.1 h
  obtain ⟨d4, h4, h⟩ := bind_ok.1 h
  cases h
  have e1 : drawPolygons .pi pr available time pi.1 pi.2 = .ok (if pr then d1 else []) := by
    cases pr with
    | false => rfl
    | true => rw [ha rfl]; exact h1
  have e2 : drawPolygons .ci cr (some credible) time ci.1 ci.2 = .ok (if cr then d2 else []) := by
    cases cr with
    | false => rfl
    | true => exact h2
  have f1 : d1.filter (fun d => shownWith cr pr (d.view.map fun b => b.kind)) = if pr then d1 else [] := by
    have : ∀ d ∈ d1, shownWith cr pr (d.view.map fun b => b.kind) = pr := fun d hd => by
      obtain ⟨b, hb, hk⟩ := drawPolygons_kind h1 d hd
      rw [hb, Option.map_some, hk]; rfl
    rw [List.filter_congr this]
    cases pr <;> simp
  have f2 : d2.filter (fun d => shownWith cr pr (d.view.map fun b => b.kind)) = if cr then d2 else [] := by
    have : ∀ d ∈ d2, shownWith cr pr (d.view.map fun b => b.kind) = cr := fun d hd => by
      obtain ⟨b, hb, hk⟩ := drawPolygons_kind h2 d hd
      rw [hb, Option.map_some, hk]; rfl
    rw [List.filter_congr this]
    cases cr <;> simp
  have f3 : d3.filter (fun d => shownWith cr pr (d.view.map fun b => b.kind)) = d3 :=
    List.filter_eq_self.2 fun d hd => by rw [drawModel3_view h3 d hd]; rfl
  have f4 : d4.filter (fun d => shownWith cr pr (d.view.map fun b => b.kind)) = d4 :=
    List.filter_eq_self.2 fun d hd => by rw [drawData3_view h4 d hd]; rfl
  unfold plot3dIntervals
  rw [hci, ok_bind, hpi, ok_bind, e1, ok_bind, e2, ok_bind, h3, ok_bind, h4, ok_bind]
  refine ⟨_, rfl, ?_⟩
  simp only [List.filter_append, f1, f2, f3, f4]

example : ∃ fig fig', plot3dIntervals ipSamples (some ipNoisy) [(0, 2), (1, 3)] (some [4, 5]) none [50, 90] none true
      true true ipPlain ipPlain = .ok fig ∧
    plot3dIntervals ipSamples none [(0, 2), (1, 3)] (some [4, 5]) none [50, 90] none true true false ipPlain ipPlain
      = .ok fig' ∧
    fig'.drawn = fig.drawn.filter fun d => shownWith true false (d.view.map fun b => b.kind) := by
  obtain ⟨fig, _, _, _, h, -⟩ := C95_space_partial (credible := ipSamples) (prediction := ipNoisy) (by decide)
    (by decide) (time := [(0, 2), (1, 3)]) rfl (limits := [50, 90]) (ciset := ipPlain) (piset := ipPlain)
    ip_valid ip_valid (ydata := some [4, 5]) (xdata := none) (adddata := none)
    (by rintro y hy; cases hy; exact ⟨rfl, rfl⟩) (by rintro ⟨⟩) true
  obtain ⟨fig', h1, h2⟩ := C95_space_switches h true false (available := none) (by decide)
  exact ⟨fig, fig', h, h1, h2⟩

/-- **Refutation of C95 for `plot_3d_intervals`:** with more or fewer observations than times the
call raises, although `xdata` gives a position for each observation. -/
theorem C95_space_refuted {credible prediction : List (Fin c → K)} (hcr : 2 ≤ credible.length)
    (hpr : 2 ≤ prediction.length) {time : List (K × K)} (ht : time.length = c) {limits : List K}
    {ciset piset : IntervalSet K κ M} (hci : ValidLimits (ciset.limits.getD limits))
    (hpi : ValidLimits (piset.limits.getD limits)) {y : List K} {x : List (K × K)}
    (_hx : x.length = y.length) (hy : y.length ≠ time.length)
    {adddata : Option Bool} (ha : adddata ≠ some false) (addmodel : Bool) :
    plot3dIntervals credible (some prediction) time (some y) (some x) limits adddata addmodel true
      true ciset piset = .error .valueError := by
  obtain ⟨ccs, c1, c2, c3⟩ := setupIset_ok hci .ci
  obtain ⟨pcs, p1, p2, p3⟩ := setupIset_ok hpi .pi
  obtain ⟨d1, pb, e1, -⟩ := drawPolygons_ok hpr ht hpi .pi p2
  obtain ⟨d2, cb, e2, -⟩ := drawPolygons_ok hcr ht hci .ci c2
  obtain ⟨med, m1, m2⟩ := median_ok hcr
  have hm : drawModel3 (κ := κ) (M := M) addmodel credible time =
      .ok (if addmodel then [.model (time.zip (List.ofFn med))] else []) := by
    unfold drawModel3
    cases addmodel with
    | false => rfl
    | true =>
      rw [if_neg (by simp), m2, ok_bind]
      unfold sameLength
      rw [if_pos ht, ok_bind]
      rfl
  have hdd : drawData3 (κ := κ) (M := M) adddata time (some x) (some y) = .error .valueError := by
    unfold drawData3
    rcases adddata with _ | _ | _
    · simp [orRaise, sameLength, hy, ok_bind]; rfl
    · exact absurd rfl ha
    · simp [orRaise, sameLength, hy, ok_bind]; rfl
  unfold plot3dIntervals
  rw [c1, ok_bind, p1, ok_bind]
  dsimp only
  rw [e1, ok_bind, e2, ok_bind, hm, ok_bind, hdd]
  rfl

example := C95_space_refuted (credible := ipSamples) (prediction := ipNoisy) (by decide) (by decide)
  (time := [(0, 2), (1, 3)]) rfl (limits := [50, 90]) (ciset := ipPlain) (piset := ipPlain)
  ip_valid ip_valid (y := [4, 5, 6]) (x := [(0, 1), (1, 1), (2, 5)]) rfl (by decide)
  (adddata := none) (by decide) true

/-! ### C94: arguments -/

/-- **C94, full statement:** a plotting call leaves the lists it is given as they are.
**Proved here** for `plot_intervals` when the limits are given in decreasing order; see
`C94_limits_refuted`. -/
theorem C94_limits_partial {credible : List (Fin c → K)} {prediction : Option (List (Fin c → K))}
    {time : List K} {ydata xdata : Option (List K)} {limits : List K} {adddata : Option Bool}
    {addmodel addcredible addprediction : Bool} {ciset piset : IntervalSet K κ M}
    {fig : IntervalFigure K (Drawn K κ M c)}
    (h : plotIntervals credible prediction time ydata xdata limits adddata addmodel addcredible
      addprediction ciset piset = .ok fig)
    (hl : limits.Pairwise (· ≥ ·)) (hci : ∀ l, ciset.limits = some l → l.Pairwise (· ≥ ·))
    (hpi : ∀ l, piset.limits = some l → l.Pairwise (· ≥ ·)) :
    fig.limitsArg = limits ∧ fig.ciLimitsArg = ciset.limits ∧ fig.piLimitsArg = piset.limits := by
  unfold plotIntervals at h
  obtain ⟨_, _, h⟩ := bind_ok.1 h
  obtain ⟨_, _, h⟩ := bind_ok.1 h
  obtain ⟨_, _, h⟩ := bind_ok.1 h
  obtain ⟨_, _, h⟩ := bind_ok.1 h
  obtain ⟨_, _, h⟩ := bind_ok.1 h
  obtain ⟨_, _, h⟩ := bind_ok.1 h
  cases h
  refine ⟨?_, ?_, ?_⟩
  · simp only [limitsAfter]
    split
    · exact sort_of_decreasing hl
    · rfl
  · simp only [isetLimitsAfter]
    cases hc : ciset.limits with
    | none => rfl
    | some l => simp [sort_of_decreasing (hci l hc)]
  · simp only [isetLimitsAfter]
    cases hc : piset.limits with
    | none => rfl
    | some l => simp [sort_of_decreasing (hpi l hc)]

example : ∃ fig, plotIntervals ipSamples (some ipNoisy) [0, 1] (some [3, 4, 5]) (some [0, 1, 2])
    [90, 50] none true true true ipPlain ipPlain = .ok fig ∧ fig.limitsArg = [90, 50] := by
  obtain ⟨fig, -, -, -, h, -⟩ := C92_bands_partial (credible := ipSamples) (prediction := ipNoisy)
    (by decide) (by decide) (time := [0, 1]) rfl (limits := [90, 50]) (ciset := ipPlain)
    (piset := ipPlain) ip_valid ip_valid ip_fits none true
  exact ⟨fig, h, (C94_limits_partial h (by decide +kernel) (by intro l hl; cases hl)
    (by intro l hl; cases hl)).1⟩

/-- **Refutation of C94 for `plot_intervals`:** whenever `limits` is used (one of the two settings
has no limits of its own) and is not in decreasing order, the caller's list is changed: it is
sorted. -/
theorem C94_limits_refuted {credible : List (Fin c → K)} {prediction : Option (List (Fin c → K))}
    {time : List K} {ydata xdata : Option (List K)} {limits : List K} {adddata : Option Bool}
    {addmodel addcredible addprediction : Bool} {ciset piset : IntervalSet K κ M}
    {fig : IntervalFigure K (Drawn K κ M c)}
    (h : plotIntervals credible prediction time ydata xdata limits adddata addmodel addcredible
      addprediction ciset piset = .ok fig)
    (hu : ciset.limits = none ∨ piset.limits = none) (hl : ¬ limits.Pairwise (· ≥ ·)) :
    fig.limitsArg ≠ limits ∧ fig.limitsArg.Perm limits ∧ fig.limitsArg.Pairwise (· ≥ ·) := by
  unfold plotIntervals at h
  obtain ⟨_, _, h⟩ := bind_ok.1 h
  obtain ⟨_, _, h⟩ := bind_ok.1 h
  obtain ⟨_, _, h⟩ := bind_ok.1 h
  obtain ⟨_, _, h⟩ := bind_ok.1 h
  obtain ⟨_, _, h⟩ := bind_ok.1 h
  obtain ⟨_, _, h⟩ := bind_ok.1 h
  cases h
  have he : limitsAfter limits ciset piset = limits.insertionSort (· ≥ ·) := by
    unfold limitsAfter
    rw [if_pos]
    rcases hu with h | h <;> simp [h]
  have hs : (limits.insertionSort (· ≥ ·)).Pairwise (· ≥ ·) := List.pairwise_insertionSort _ _
  show limitsAfter limits ciset piset ≠ limits ∧ (limitsAfter limits ciset piset).Perm limits ∧
    (limitsAfter limits ciset piset).Pairwise (· ≥ ·)
  rw [he]
  refine ⟨fun e => hl ?_, List.perm_insertionSort _ _, hs⟩
  rw [e] at hs
  exact hs

example : ∃ fig, plotIntervals ipSamples (some ipNoisy) [0, 1] (some [3, 4, 5]) (some [0, 1, 2])
    [50, 90] none true true true ipPlain ipPlain = .ok fig ∧ fig.limitsArg ≠ [50, 90] := by
  obtain ⟨fig, -, -, -, h, -⟩ := C92_bands_partial (credible := ipSamples) (prediction := ipNoisy)
    (by decide) (by decide) (time := [0, 1]) rfl (limits := [50, 90]) (ciset := ipPlain)
    (piset := ipPlain) ip_valid ip_valid ip_fits none true
  exact ⟨fig, h, (C94_limits_refuted h (.inl rfl) (by decide +kernel)).1⟩

end

section
variable {F : Type} {p : ℕ}

/-- **C94, full statement:** see `C94_limits_partial`.  **Proved here** for the chain plots when the
list of names is missing or has a name for every parameter. -/
theorem C94_names_partial {names : Option (List (List Char))}
    (hn : ∀ l, names = some l → p ≤ l.length) :
    (∀ (chains : List (Fin p → F)) (skip maxpoints : ℕ) fig,
      plotChainPanel chains names skip maxpoints = .ok fig → fig.namesArg = names) ∧
    (∀ (chains : List (Fin p → F)) fig,
      plotHistogramPanel chains names = .ok fig → fig.namesArg = names) ∧
    (∀ (chains : List (Fin p → F)) (skip maxpoints : ℕ) fig,
      plotPairwise chains names skip maxpoints = .ok fig → fig.namesArg = names) ∧
    (∀ kde (chains : List (Fin p → ℝ)) hist fig,
      plotDensityPanel kde chains names hist = .ok fig → fig.namesArg = names) := by
  have he : namesAfter p names = names := by
    unfold namesAfter
    cases names with
    | none => rfl
    | some l =>
      have := hn l rfl
      simp only [Option.map_some, Option.some.injEq]
      split
      · unfold extendNames
        simp [Nat.sub_eq_zero_of_le this]
      · rfl
  refine ⟨fun chains skip maxpoints fig h => ?_, fun chains fig h => ?_,
    fun chains skip maxpoints fig h => ?_, fun kde chains hist fig h => ?_⟩
  · unfold plotChainPanel at h
    obtain ⟨_, _, h⟩ := bind_ok.1 h
    obtain ⟨_, _, h⟩ := bind_ok.1 h
    cases h; exact he
  · unfold plotHistogramPanel at h
    obtain ⟨_, _, h⟩ := bind_ok.1 h
    cases h; exact he
  · unfold plotPairwise at h
    obtain ⟨_, _, h⟩ := bind_ok.1 h
    obtain ⟨_, _, h⟩ := bind_ok.1 h
    cases h; exact he
  · unfold plotDensityPanel at h
    obtain ⟨_, _, h⟩ := bind_ok.1 h
    cases h; exact he

example := C94_names_partial (F := ℚ) (p := 2) (names := some ["a".toList, "b".toList, "c".toList])
  (by intro l hl; cases hl; decide)

/-- **Refutation of C94 for the chain plots:** a list with fewer names than parameters is longer
after the call: default names have been appended to the caller's list. -/
theorem C94_names_refuted {l : List (List Char)} (hl : l.length < p) (chains : List (Fin p → F))
    {fig : Figure (List F)} (h : plotHistogramPanel chains (some l) = .ok fig) :
    ∃ l', fig.namesArg = some l' ∧ l'.length = p ∧ l <+: l' ∧ l' ≠ l := by
  unfold plotHistogramPanel at h
  obtain ⟨_, _, h⟩ := bind_ok.1 h
  cases h
  refine ⟨l ++ (List.range' l.length (p - l.length)).map defaultName, ?_, ?_,
    List.prefix_append _ _, ?_⟩
  · simp only [namesAfter, Option.map_some]
    rw [if_pos (by omega)]
    rfl
  · simp; omega
  · intro e
    have := congrArg List.length e
    simp at this
    omega

example : ∃ fig, plotHistogramPanel ipSamples (some ["a".toList]) = .ok fig ∧
    ∃ l', fig.namesArg = some l' ∧ l' = ["a".toList, "$p_{1}$".toList] := by
  obtain ⟨fig, -, -, h, -⟩ := C89_histogram ipSamples (some ["a".toList])
  refine ⟨fig, h, ?_⟩
  obtain ⟨l', h1, h2, h3, -⟩ := C94_names_refuted (by decide) _ h
  refine ⟨l', h1, ?_⟩
  unfold plotHistogramPanel at h
  obtain ⟨_, _, h⟩ := bind_ok.1 h
  cases h
  cases h1
  decide +kernel

end

end Verif
