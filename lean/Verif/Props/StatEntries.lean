import Verif.Props.ChainStats
import Verif.Lemmas.Estimates
import Verif.Spec.Stats

/-! # The entries of the dictionary of `chainstats`: C144 -/

set_option linter.unusedSectionVars false

namespace Verif
open XR

/-- average of column `j` of some rows -/
noncomputable def colAvg {p : ℕ} (j : Fin p) (l : List (Fin p → ℝ)) : ℝ := (l.map fun r => r j).sum / l.length

theorem npMean_col {p : ℕ} (j : Fin p) {l : List (Fin p → ℝ)} (h : l ≠ []) :
    npMean ((l.map finVec).map fun r => r j) = fin (colAvg j l) := by
  have e : (l.map finVec).map (fun r => r j) = (l.map fun r => r j).map fin := by
    rw [List.map_map, List.map_map]; rfl
  rw [e, npMean_map_fin (by simpa using h), List.length_map]
  rfl

theorem map_eq_flatten {α β : Type} {f : α → β} : ∀ {bs : List (List β)} {l : List α} {r : List β},
    l.map f = bs.flatten ++ r → ∃ (cs : List (List α)) (s : List α), l = cs.flatten ++ s ∧
      cs.map (List.map f) = bs ∧ s.map f = r
  | [], l, r, h => ⟨[], l, by simp, rfl, by simpa using h⟩
  | b :: bs, l, r, h => by
    rw [List.flatten_cons, List.append_assoc] at h
    obtain ⟨l1, l2, e, e1, e2⟩ := List.map_eq_append_iff.1 h
    obtain ⟨cs, s, f1, f2, f3⟩ := map_eq_flatten e2
    refine ⟨l1 :: cs, s, ?_, ?_, f3⟩
    · rw [e, f1, List.flatten_cons, List.append_assoc]
    · rw [List.map_cons, e1, f2]

theorem mapM_finRange_get {p : ℕ} {β : Type} {f : Fin p → Except PyErr β} {l : List β}
    (h : (List.finRange p).mapM f = .ok l) (j : Fin p) : ∃ v, l[(j : ℕ)]? = some v ∧ f j = .ok v := by
  have key : ∀ {L : List (Fin p)} {l : List β}, L.mapM f = .ok l → ∀ (i : ℕ) (a : Fin p), L[i]? = some a →
      ∃ v, l[i]? = some v ∧ f a = .ok v := by
    intro L
    induction L with
    | nil => intro l _ i a hi; simp at hi
    | cons b L ih =>
      intro l h i a hi
      rw [List.mapM_cons] at h
      obtain ⟨v, hv, h⟩ := bind_ok.1 h
      obtain ⟨l', hl', h⟩ := bind_ok.1 h
      cases h
      cases i with
      | zero =>
        simp only [List.getElem?_cons_zero, Option.some.injEq] at hi
        exact ⟨v, rfl, by rw [← hi]; exact hv⟩
      | succ i =>
        simp only [List.getElem?_cons_succ] at hi ⊢
        exact ih hl' i a hi
  exact key h j j (by simp)

/-- **C144.** Whenever `chainstats` returns statistics for a chain of finite values, `mean` holds the
averages of the columns, `std` the root mean square deviations from them, and `mcerr` the batch-means
estimate of the standard error of the average: the chain without a rest shorter than a batch is cut into
batches of `max(10, nsimu/20)` rows, and the error is the square root of the mean square deviation of the
batch averages from the average (with divisor one less than their number), times the size of a batch,
divided by the number of rows.  Entry `j` of the Geweke diagnostic compares the first tenth of column
`j` with its last half, and entry `j` of `iact` is the autocorrelation time of column `j`. -/
theorem C144_entries {p : ℕ} (hann : ℕ → ℕ → XR) (cdf : XR → XR) (iact : List XR → Except PyErr (XR × ℕ))
    {x : List (Fin p → ℝ)} {st : Stats XR p}
    (h : chainstats (K := ℚ) hann cdf iact (some (x.map finVec)) = .ok (some st)) :
    ∃ (batches : List (List (Fin p → ℝ))) (rest : List (Fin p → ℝ)),
      x = batches.flatten ++ rest ∧ (∀ l ∈ batches, l.length = max 10 (x.length / 20)) ∧
      rest.length < max 10 (x.length / 20) ∧ 2 ≤ batches.length ∧ ∀ j,
        st.mean j = fin (colAvg j x) ∧
        st.std j = fin (Real.sqrt ((x.map fun r => (r j - colAvg j x) ^ 2).sum / x.length)) ∧
        st.mcerr j = fin (Real.sqrt ((batches.map fun l => (colAvg j l - colAvg j x) ^ 2).sum /
          (batches.length - 1) * (max 10 (x.length / 20) : ℕ) / x.length)) ∧
        st.bmstd j = fin (Real.sqrt ((batches.map fun l => (colAvg j l - colAvg j x) ^ 2).sum /
          (batches.length - 1) * (max 10 (x.length / 20) : ℕ))) ∧
        (∃ g, st.geweke[(j : ℕ)]? = some g ∧ gewekeColumn hann cdf (x.map fun r => fin (r j))
          ((x.length / 10 : ℕ), x.length - (x.length / 2 : ℕ)) = .ok g) ∧
        ∃ t, st.iact[(j : ℕ)]? = some t ∧ iact (x.map fun r => fin (r j)) = .ok t := by
  unfold chainstats at h
  simp only at h
  obtain ⟨bm, hbm, h⟩ := bind_ok.1 h
  obtain ⟨g, hg, h⟩ := bind_ok.1 h
  obtain ⟨l, hl, h⟩ := bind_ok.1 h
  cases h
  dsimp only
  obtain ⟨bn, bs, rest, hbn, hb, e, hlen, hrest, h2, hs⟩ := C54_batches hbm
  obtain ⟨cs, r, f1, f2, f3⟩ := map_eq_flatten e
  have hbn' : bn = max 10 (x.length / 20) := by
    rcases hb with hb | ⟨_, hb⟩
    · cases hb
    · rw [hb, List.length_map]
  subst f2 f3
  have hlenc : ∀ c ∈ cs, c.length = bn := fun c hc => by
    have := hlen (c.map finVec) (List.mem_map_of_mem hc)
    simpa using this
  rw [List.length_map] at h2 hrest
  have hx : x ≠ [] := by
    intro h0
    rw [h0] at f1
    have : (cs.flatten ++ r).length = 0 := by rw [← f1]; rfl
    cases cs with
    | nil => simp at h2
    | cons c cs =>
      have := hlenc c (by simp)
      simp at f1
      rw [f1.1] at this
      simp at this
      omega
  have hn0 : (x.length : ℝ) ≠ 0 := by simpa using hx
  have hnpos : (0 : ℝ) < x.length := lt_of_le_of_ne (Nat.cast_nonneg _) hn0.symm
  refine ⟨cs, r, f1, fun c hc => by rw [← hbn']; exact hlenc c hc, by rw [← hbn']; exact hrest, h2,
    fun j => ?_⟩
  have hbm' : bm j = fin (Real.sqrt ((cs.map fun l => (colAvg j l - colAvg j x) ^ 2).sum /
      (cs.length - 1) * bn)) := by
    have hnb : ((((cs.map (List.map finVec)).length : ℚ) - 1 : ℚ) : ℝ) ≠ 0 := by
      rw [List.length_map]; push_cast
      have : (2 : ℝ) ≤ cs.length := by exact_mod_cast h2
      linarith
    have e1 : lsum ((cs.map (List.map finVec)).map fun l : List (Vec XR p) =>
        (npMean (l.map fun r => r j) - npMean ((x.map finVec).map fun r => r j)) *
          (npMean (l.map fun r => r j) - npMean ((x.map finVec).map fun r => r j))) =
        fin ((cs.map fun l => (colAvg j l - colAvg j x) ^ 2).sum) := by
      rw [← lsum_fin]
      congr 1
      rw [List.map_map, List.map_map (l := cs)]
      refine List.map_congr_left fun c hc => ?_
      have hc0 : c ≠ [] := by
        intro h0
        have := hlenc c hc
        rw [h0] at this
        simp at this
        omega
      simp only [Function.comp]
      rw [npMean_col j hc0, npMean_col j hx]
      simp [pow_two]
    rw [hs j, e1, lit_eq, fin_div hnb, lit_eq, fin_mul, XR.sqrt_fin]
    · rw [List.length_map]; push_cast; rfl
    · rw [List.length_map]
      push_cast
      have : (2 : ℝ) ≤ cs.length := by exact_mod_cast h2
      refine mul_nonneg (div_nonneg (List.sum_nonneg fun a ha => ?_) (by linarith)) (Nat.cast_nonneg _)
      obtain ⟨_, _, rfl⟩ := List.mem_map.1 ha
      exact sq_nonneg _
  have hcol : (x.map finVec).map (fun r => r j) = x.map fun r => fin (r j) := by rw [List.map_map]; rfl
  have hbnr : (bn : ℝ) = ((max 10 (x.length / 20) : ℕ) : ℝ) := by rw [hbn']
  refine ⟨npMean_col j hx, ?_, ?_, ?_, ?_, ?_⟩
  · have e1 : ((x.map finVec).map fun r => r j).map (fun a =>
        (a - npMean ((x.map finVec).map fun r => r j)) * (a - npMean ((x.map finVec).map fun r => r j))) =
        (x.map fun r => (r j - colAvg j x) ^ 2).map fin := by
      rw [npMean_col j hx, hcol, List.map_map, List.map_map]
      refine List.map_congr_left fun r _ => ?_
      simp [pow_two]
    rw [e1, npMean_map_fin (by simpa using hx), List.length_map, XR.sqrt_fin]
    refine div_nonneg (List.sum_nonneg fun a ha => ?_) (Nat.cast_nonneg _)
    obtain ⟨_, _, rfl⟩ := List.mem_map.1 ha
    exact sq_nonneg _
  · rw [hbm', lit_eq, List.length_map, XR.sqrt_fin (by positivity), fin_div]
    · rw [← hbnr]
      push_cast
      rw [Real.sqrt_div']
      positivity
    · push_cast
      exact (Real.sqrt_pos.2 hnpos).ne'
  · rw [hbm', hbnr]
  · unfold geweke at hg
    obtain ⟨w, hw, hg⟩ := bind_ok.1 hg
    obtain ⟨v, e1, e2⟩ := mapM_finRange_get hg j
    refine ⟨v, e1, ?_⟩
    rw [gewekeWindows_default, List.length_map] at hw
    split at hw
    · cases hw
      rw [hcol] at e2
      exact e2
    · cases hw
  · obtain ⟨v, e1, e2⟩ := mapM_finRange_get hl j
    exact ⟨v, e1, by rw [← hcol]; exact e2⟩

/-! ### The Geweke diagnostic -/

/-- power at frequency zero of `l`, estimated with the window `w` from overlapping segments of a quarter of
its length: average over the segments of the squared windowed sum, per square sum of the window -/
noncomputable def powerAtZero (w : ℕ → ℕ → ℝ) (l : List ℝ) : ℝ :=
  let nw := l.length / 4
  let step := nw - nw / 2
  let k := (l.length - nw / 2) / step
  ((List.range k).map fun i => ((List.range nw).map fun j => w nw j * l.getD (i * step + j) 0).sum ^ 2).sum /
    (k * ((List.range nw).map fun j => w nw j ^ 2).sum)

theorem mapM_ok_map {α β : Type} {f : α → Except PyErr β} {g : α → β} : ∀ {l : List α} {r : List β},
    l.mapM f = .ok r → (∀ a v, f a = .ok v → v = g a) → r = l.map g
  | [], r, h, _ => by cases h; rfl
  | a :: l, r, h, hg => by
    rw [List.mapM_cons] at h
    obtain ⟨v, hv, h⟩ := bind_ok.1 h
    obtain ⟨r', hr', h⟩ := bind_ok.1 h
    cases h
    rw [List.map_cons, hg a v hv, mapM_ok_map hr' hg]

theorem spectrum_value {w : ℕ → ℕ → ℝ} (hw : ∀ nw, 0 < nw → ((List.range nw).map fun j => w nw j ^ 2).sum ≠ 0)
    {l : List ℝ} {v : XR} (h : spectrumAtZero (fun a b => fin (w a b)) (l.map fin) = .ok v) :
    v = fin (powerAtZero w l) := by
  unfold spectrumAtZero at h
  simp only [List.length_map] at h
  split at h
  · cases h
  rename_i hs
  obtain ⟨ws, hws, h⟩ := bind_ok.1 h
  split at h
  · cases h
  cases h
  generalize hnw : l.length / 4 = nw at *
  have hk : 0 < (l.length - nw / 2) / (nw - nw / 2) := Nat.div_pos (by omega) (by omega)
  have e1 : ws = (List.range ((l.length - nw / 2) / (nw - nw / 2))).map fun i =>
      ((List.range nw).map fun j => w nw j * l.getD (i * (nw - nw / 2) + j) 0).map fin := by
    refine mapM_ok_map hws fun i r hr => ?_
    rw [List.map_map]
    refine mapM_ok_map hr fun j y hy => ?_
    cases hg : pyGet (l.map fin) (i * (nw - nw / 2) + j) with
    | error e => rw [hg] at hy; cases hy
    | ok y' =>
      rw [hg] at hy
      cases hy
      rw [pyGet_ok, List.getElem?_map] at hg
      obtain ⟨z, hz, rfl⟩ := Option.map_eq_some_iff.1 hg
      simp [List.getD, hz]
  have e2 : ws.map (fun w => lsum w * lsum w) =
      ((List.range ((l.length - nw / 2) / (nw - nw / 2))).map fun i =>
        ((List.range nw).map fun j => w nw j * l.getD (i * (nw - nw / 2) + j) 0).sum ^ 2).map fin := by
    rw [e1, List.map_map, List.map_map]
    refine List.map_congr_left fun i _ => ?_
    simp only [Function.comp]
    rw [lsum_fin, fin_mul, pow_two]
  have e3 : (List.range nw).map (fun i => fin (w nw i) * fin (w nw i)) =
      ((List.range nw).map fun j => w nw j ^ 2).map fin := by
    rw [List.map_map]
    exact List.map_congr_left fun i _ => by simp [pow_two]
  have hne := hw nw (by omega)
  have hk' : (((l.length - nw / 2) / (nw - nw / 2) : ℕ) : ℝ) ≠ 0 := by exact_mod_cast hk.ne'
  rw [e2, e3, lsum_fin, lsum_fin, lit_eq, lit_eq, fin_mul, fin_div, fin_mul]
  · unfold powerAtZero
    simp only [hnw]
    congr 1
    push_cast
    rw [mul_one_div]
  · push_cast
    exact mul_ne_zero hk' hne

/-- **C144, Geweke.** Entry `j` of the diagnostic is the difference of the averages over the first tenth and
the last half of column `j`, divided by the root of the sum of the two powers at frequency zero, each
divided by the number of its rows; `p` is twice the upper tail of the normal distribution beyond its
absolute value.  (`hann` is the window function; its squares have a positive sum for every length; the
powers are not both zero.) -/
theorem C144_geweke {p : ℕ} {w : ℕ → ℕ → ℝ}
    (hw : ∀ nw, 0 < nw → ((List.range nw).map fun j => w nw j ^ 2).sum ≠ 0) (cdf : XR → XR)
    (iact : List XR → Except PyErr (XR × ℕ)) {x : List (Fin p → ℝ)} {st : Stats XR p}
    (h : chainstats (K := ℚ) (fun a b => fin (w a b)) cdf iact (some (x.map finVec)) = .ok (some st))
    (j : Fin p) {a b : List (Fin p → ℝ)} (ha : a = x.take (x.length / 10))
    (hb : b = x.drop (x.length - x.length / 2)) {V : ℝ}
    (hV : V = powerAtZero w (a.map fun r => r j) / (x.length / 10 : ℕ) +
      powerAtZero w (b.map fun r => r j) / (x.length / 2 : ℕ)) (hpos : 0 < V) :
    ∃ z, z = (colAvg j a - colAvg j b) / Real.sqrt V ∧
      st.geweke[(j : ℕ)]? = some (fin z, fin 2 * (fin 1 - cdf (fin |z|))) := by
  obtain ⟨_, _, _, _, _, _, hj⟩ := C144_entries _ cdf iact h
  obtain ⟨-, -, -, -, ⟨g, hg, hcol⟩, -⟩ := hj j
  refine ⟨_, rfl, hg.trans (congrArg some ?_)⟩
  clear hj
  unfold gewekeColumn at hcol
  have hsa : sliceBound x.length ((x.length / 10 : ℕ) : ℤ) = x.length / 10 := by
    unfold sliceBound; rw [if_pos (by omega)]; omega
  have hsb : sliceBound x.length ((x.length : ℤ) - ((x.length / 2 : ℕ) : ℤ)) = x.length - x.length / 2 := by
    unfold sliceBound; rw [if_pos (by omega)]; omega
  simp only [List.length_map] at hcol
  rw [hsa, hsb] at hcol
  have ea : (x.map fun r => fin (r j)).take (x.length / 10) = (a.map fun r => r j).map fin := by
    rw [ha, ← List.map_take, List.map_map]; rfl
  have eb : (x.map fun r => fin (r j)).drop (x.length - x.length / 2) = (b.map fun r => r j).map fin := by
    rw [hb, ← List.map_drop, List.map_map]; rfl
  rw [ea, eb] at hcol
  obtain ⟨sa, h1, hcol⟩ := bind_ok.1 hcol
  obtain ⟨sb, h2, hcol⟩ := bind_ok.1 hcol
  cases hcol
  have nonempty : ∀ {l : List ℝ} {v : XR}, spectrumAtZero (fun a b => fin (w a b)) (l.map fin) = .ok v → 4 ≤ l.length := by
    intro l v hl
    unfold spectrumAtZero at hl
    simp only [List.length_map] at hl
    split at hl
    · cases hl
    · omega
  have la := nonempty h1
  have lb := nonempty h2
  rw [List.length_map, ha, List.length_take] at la
  rw [List.length_map, hb, List.length_drop] at lb
  have na : ((x.length / 10 : ℕ) : ℝ) ≠ 0 := by
    have : x.length / 10 ≠ 0 := by omega
    exact_mod_cast this
  have nb : ((x.length / 2 : ℕ) : ℝ) ≠ 0 := by
    have : x.length / 2 ≠ 0 := by omega
    exact_mod_cast this
  have hmean : ∀ {c : List (Fin p → ℝ)}, c ≠ [] → npMean ((c.map fun r => r j).map fin) = fin (colAvg j c) := by
    intro c hc
    rw [npMean_map_fin (by simpa using hc), List.length_map]
    rfl
  have ha0 : a ≠ [] := by
    intro h0; rw [← List.length_take, ← ha, h0] at la; simp at la
  have hb0 : b ≠ [] := by
    intro h0; rw [← List.length_drop, ← hb, h0] at lb; simp at lb
  have hz : (npMean ((a.map fun r => r j).map fin) - npMean ((b.map fun r => r j).map fin)) /
      PyFloat.sqrt (sa / lit (((x.length / 10 : ℕ) : ℤ) : ℚ) +
        sb / lit ((x.length : ℚ) - (((x.length : ℤ) - ((x.length / 2 : ℕ) : ℤ) : ℤ) : ℚ))) =
      fin ((colAvg j a - colAvg j b) / Real.sqrt V) := by
    have q1 : (((x.length / 10 : ℕ) : ℤ) : ℚ) = ((x.length / 10 : ℕ) : ℚ) := Int.cast_natCast _
    have q2 : (x.length : ℚ) - (((x.length : ℤ) - ((x.length / 2 : ℕ) : ℤ) : ℤ) : ℚ) =
        ((x.length / 2 : ℕ) : ℚ) := by
      generalize x.length / 2 = k
      push_cast
      ring
    rw [q1, q2, spectrum_value hw h1, spectrum_value hw h2, lit_eq, lit_eq, Rat.cast_natCast, Rat.cast_natCast,
      fin_div na, fin_div nb, fin_add, hmean ha0, hmean hb0, fin_sub, ← hV, XR.sqrt_fin hpos.le,
      fin_div (Real.sqrt_pos.2 hpos).ne']
  rw [hz]
  have habs : pyAbs (fin ((colAvg j a - colAvg j b) / Real.sqrt V)) =
      fin |(colAvg j a - colAvg j b) / Real.sqrt V| := by
    unfold pyAbs
    split
    · rename_i hneg
      rw [abs_of_neg (by simpa using hneg)]
      simp
    · rename_i hneg
      rw [abs_of_nonneg (by simpa using hneg)]
  rw [habs, lit_eq, lit_eq]
  norm_num

/-- a chain of forty rows for which the statistics exist -/
example : ∃ st : Stats XR 1, chainstats (K := ℚ) (fun _ _ => fin 1) (fun z => z) (fun _ => .ok (fin 1, 1))
    (some (((List.range 40).map fun i => fun _ : Fin 1 => (i : ℝ)).map finVec)) = .ok (some st) := by
  obtain ⟨st, h, _⟩ := C67_available_partial (F := XR) (p := 1) (fun _ _ => fin 1) (fun z => z)
    (fun _ => .ok (fin 1, 1)) (fun _ _ => ⟨_, rfl⟩)
    (((List.range 40).map fun i => fun _ : Fin 1 => (i : ℝ)).map finVec) (by simp)
  exact ⟨st, h⟩

theorem powerAtZero_nonneg (w : ℕ → ℕ → ℝ) (l : List ℝ) : 0 ≤ powerAtZero w l := by
  refine div_nonneg (List.sum_nonneg fun a ha => ?_) (mul_nonneg (Nat.cast_nonneg _) (List.sum_nonneg fun a ha => ?_))
  all_goals
    obtain ⟨_, _, rfl⟩ := List.mem_map.1 ha
    exact sq_nonneg _

/-- the same chain with a rectangular window: the powers are not both zero, and `z` is
`(1.5 - 29.5) / √V` -/
example : ∃ (V z : ℝ) (st : Stats XR 1), 0 < V ∧ z = (3 / 2 - 59 / 2) / Real.sqrt V ∧
    st.geweke[0]? = some (fin z, fin 2 * (fin 1 - fin |z|)) := by
  obtain ⟨st, h, _⟩ := C67_available_partial (F := XR) (p := 1) (fun _ _ => fin 1) (fun z => z)
    (fun _ => .ok (fin 1, 1)) (fun _ _ => ⟨_, rfl⟩)
    (((List.range 40).map fun i => fun _ : Fin 1 => (i : ℝ)).map finVec) (by simp)
  have hpos : 0 < powerAtZero (fun _ _ => 1) ((((List.range 40).map fun i => fun _ : Fin 1 => (i : ℝ)).take
      (((List.range 40).map fun i => fun _ : Fin 1 => (i : ℝ)).length / 10)).map fun r => r 0) /
        ((((List.range 40).map fun i => fun _ : Fin 1 => (i : ℝ)).length / 10 : ℕ) : ℝ) +
      powerAtZero (fun _ _ => 1) ((((List.range 40).map fun i => fun _ : Fin 1 => (i : ℝ)).drop
        (((List.range 40).map fun i => fun _ : Fin 1 => (i : ℝ)).length -
          ((List.range 40).map fun i => fun _ : Fin 1 => (i : ℝ)).length / 2)).map fun r => r 0) /
        ((((List.range 40).map fun i => fun _ : Fin 1 => (i : ℝ)).length / 2 : ℕ) : ℝ) := by
    refine add_pos_of_pos_of_nonneg (div_pos ?_ (by simp)) (div_nonneg (powerAtZero_nonneg _ _) (Nat.cast_nonneg _))
    simp [powerAtZero, List.range_succ]
    norm_num
  obtain ⟨z, hz, hg⟩ := C144_geweke (w := fun _ _ => 1) (fun nw hn => by simp; omega) (fun z => z)
    (fun _ => .ok (fin 1, 1)) h 0 rfl rfl rfl hpos
  refine ⟨_, z, st, hpos, ?_, hg⟩
  rw [hz]
  congr 1
  simp [colAvg, List.range_succ]
  norm_num

end Verif
