import Verif.Lemmas.Resampling
import Verif.Lemmas.Logs
import Verif.Props.Coverage
import Verif.Props.Intervals
import Verif.Props.PredictionPlots
import Mathlib.Probability.Distributions.Gaussian.Real

/-! # Intervals of the class `PredictionIntervals` cover what they claim

C120: the curves computed by `generate_prediction_intervals` from a run of the sampler, at all rows or at rows drawn at
random, cut off the posterior probabilities that are their levels, and those of the prediction intervals the posterior
predictive probabilities, up to an error that vanishes as the numbers of rows and of samples grow. -/

set_option linter.unusedSectionVars false

namespace Verif
open MeasureTheory Function ProbabilityTheory
open scoped ENNReal Matrix

/-! ### What is computed -/

/-- the curves `lims` are, row by row, the interpolated quantiles at the levels `lv` of the `M` values `v i k` -/
def CurvesOf (lv : List ℝ) (nrow M : ℕ) (v : ℕ → ℕ → ℝ) (lims : List (List ℝ)) : Prop :=
  lims.length = lv.length ∧ (∀ l ∈ lims, l.length = nrow) ∧
  ∀ (a : ℕ) (p : ℝ) (l : List ℝ), lv[a]? = some p → lims[a]? = some l → ∀ (i : ℕ) (q : ℝ), l[i]? = some q →
    q = interpAt ((List.ofFn fun k : Fin M => v i k).insertionSort (· ≤ ·)) (((M : ℝ) - 1) * p)

theorem QuantilesOf.curves {lv : List ℝ} (hlv : ∀ q ∈ lv, 0 ≤ q ∧ q ≤ 1) {iis : List ℤ} {nrow : ℕ}
    {P : ℕ → ℤ → (Fin nrow → ℝ) → Prop} {lims : List (List ℝ)} (h : QuantilesOf lv iis nrow P lims) {v : ℕ → ℕ → ℝ}
    (hv : ∀ kk idx x, iis[kk]? = some idx → P kk idx x → ∀ i : Fin nrow, x i = v i kk) :
    CurvesOf lv nrow iis.length v lims := by
  have h2 := h.two_le
  obtain ⟨sample, q, hl, hs, hq, rfl⟩ := h
  rw [empiricalQuantiles_ok (by rw [hl]; exact h2) hlv] at hq
  cases hq
  refine ⟨by simp, fun l hl => ?_, fun a p l hp hla i q hqi => ?_⟩
  · obtain ⟨r, -, rfl⟩ := List.mem_map.1 hl
    simp
  · rw [List.getElem?_map, List.getElem?_map, hp] at hla
    cases hla
    obtain ⟨hi0, hqi⟩ := List.getElem?_eq_some_iff.1 hqi
    have hi : i < nrow := by rwa [List.length_ofFn] at hi0
    rw [List.getElem_ofFn] at hqi
    rw [← hqi]
    change interpAt ((sample.map fun r => r ⟨i, hi⟩).insertionSort (· ≤ ·)) (((sample.length : ℝ) - 1) * p) = _
    rw [hl]
    congr 2
    refine List.ext_getElem (by simp [hl]) fun k h1 _ => ?_
    rw [List.length_map] at h1
    rw [List.getElem_map, List.getElem_ofFn]
    have hk : k < iis.length := by omega
    obtain ⟨x, hx, hP⟩ := hs k iis[k] (List.getElem?_eq_getElem hk)
    rw [List.getElem?_eq_getElem h1] at hx
    cases hx
    exact hv k _ _ (List.getElem?_eq_getElem hk) hP ⟨i, hi⟩

/-- the sample points, for draws in `(0,1]` -/
theorem samplePoints_pick {n ns : ℕ} {draws : List ℝ} {r : ℕ → ℝ} (hr : ∀ k, 0 < r k ∧ r k ≤ 1)
    (hd : n ≤ ns ∨ draws = List.ofFn fun k : Fin ns => r k) :
    (defineSamplePoints ns n draws).1 =
      List.ofFn fun k : Fin (min ns n) => ((pickRow (decide (n ≤ ns)) n k (r k) : ℕ) : ℤ) := by
  unfold defineSamplePoints
  by_cases h : n ≤ ns
  · rw [if_pos h]
    refine List.ext_getElem (by simp [h]) fun k h1 h2 => ?_
    simp [pickRow, h]
  · rw [if_neg h]
    obtain rfl := hd.resolve_left h
    refine List.ext_getElem (by simp; omega) fun k h1 h2 => ?_
    have hn : 0 < n := by omega
    have hn0 : (0 : ℝ) < n := by exact_mod_cast hn
    have hc : 1 ≤ ⌈r k * n⌉ := Int.one_le_ceil_iff.2 (mul_pos (hr k).1 hn0)
    simp only [List.getElem_map, List.getElem_take, List.getElem_ofFn, pickRow, h, decide_false, Bool.false_eq_true,
      if_false]
    omega

theorem pickRow_lt {n ns k : ℕ} (hk : k < min ns n) {u : ℝ} (hu : u ≤ 1) : pickRow (decide (n ≤ ns)) n k u < n := by
  unfold pickRow
  split
  · omega
  · have hn : 0 < n := by omega
    have : ⌈u * n⌉ ≤ n := by
      rw [Int.ceil_le]
      push_cast
      have : (0 : ℝ) ≤ n := Nat.cast_nonneg n
      nlinarith
    omega

section matrix
variable {N p : ℕ} {D : Type}

/-- The model functions give, for every data set `ii` and all values of the parameters in the places `parind` (the others
being those of `th0`), a response of the shape `sh ii` whose entries are `g ii θ i j`. -/
def GivesMatrix (parind : Fin p → Fin N) (th0 : Fin N → ℝ) (mf : ModelFun D ℝ) (sets : List D) (sh : ℕ → ℕ × ℕ)
    (g : ℕ → (Fin p → ℝ) → ℕ → ℕ → ℝ) : Prop :=
  FixedShape mf sets sh ∧ ∀ (ii : ℕ) (d : D) f, sets[ii]? = some d → mf.own ii = some f →
    ∀ θ w y, AtRow parind th0 w θ → f d (List.ofFn w) = .ok y →
      ∀ i < (sh ii).1, ∀ j < (sh ii).2, y.entry (sh ii).2 i j = g ii θ i j

theorem varianceColumn_unique {ncols : List ℕ} {n ii jj c c' : ℕ} (h : VarianceColumn ncols n ii jj c)
    (h' : VarianceColumn ncols n ii jj c') : c = c' := by
  unfold VarianceColumn at h h'
  omega

/-- what `generate_prediction_intervals` computes, in terms of the rows `t`, the variances `t2` and the draws -/
theorem intervals_values {R : IntResults ℝ N p} (hinj : Function.Injective R.parind) (hloc : ∀ k, R.loc k = 0)
    {th0 : Fin N → ℝ} (hth : ∀ k, (∀ j, R.parind j ≠ k) → R.theta k = th0 k) {sets : List D} {mf : ModelFun D ℝ}
    {sh : ℕ → ℕ × ℕ} {g : ℕ → (Fin p → ℝ) → ℕ → ℕ → ℝ} (hmod : GivesMatrix R.parind th0 mf sets sh g) {b n : ℕ}
    (hn : R.chain.length = b + n) {t : ℕ → Fin p → ℝ} (ht : ∀ j < n, R.chain[b + j]? = some (t j)) {m : ℕ}
    {t2 : ℕ → Fin m → ℝ}
    (hs2 : R.s2chain = none ∨ (m = 1 ∨ m = ((List.range sets.length).map fun ii => (sh ii).2).sum ∨ m = sets.length) ∧
      ∃ l : List (Fin m → ℝ), R.s2chain = some ⟨m, l⟩ ∧ l.length = b + n ∧ ∀ j < n, l[b + j]? = some (t2 j))
    (hsst : R.sstype.getD 0 ∈ [0, 1, 2]) {nsample : Option ℕ} (hM : 2 ≤ min (nsample.getD n) n) {r : ℕ → ℝ}
    (hr : ∀ k, 0 < r k ∧ r k ≤ 1) (flag : PyFlag) (noise : ℕ → ℕ → ℕ → ℕ → ℝ) {sqrt exp : ℝ → ℝ} :
    ∃ S out, setupIntervals R sets mf b = .ok S ∧
      generateIntervals sqrt exp S none nsample flag (List.ofFn fun k : Fin (nsample.getD 0) => r k) noise = .ok out ∧
      (out.prediction.isSome ↔ R.s2chain.isSome ∧ flag ≠ .bool false ∧ flag ≠ .str "off") ∧
      out.credible.length = sets.length ∧ (∀ ii, ii < sets.length → ∃ cols, out.credible[ii]? = some cols ∧ cols.length = (sh ii).2 ∧
        ∀ jj < (sh ii).2, ∃ lims, cols[jj]? = some lims ∧
          CurvesOf (levels out.prediction.isSome) (sh ii).1 (min (nsample.getD n) n)
            (fun i k => g ii (t (pickRow (decide (n ≤ nsample.getD n)) n k (r k))) i jj) lims) ∧
      ∀ pred, out.prediction = some pred → pred.length = sets.length ∧ ∀ ii, ii < sets.length →
        ∃ cols, pred[ii]? = some cols ∧ cols.length = (sh ii).2 ∧
        ∀ jj < (sh ii).2, ∃ lims, ∃ c : Fin m, cols[jj]? = some lims ∧
          VarianceColumn ((List.range sets.length).map fun ii => (sh ii).2) m ii jj c ∧
          CurvesOf (levels true) (sh ii).1 (min (nsample.getD n) n)
            (fun i k => observed sqrt exp (R.sstype.getD 0)
              (g ii (t (pickRow (decide (n ≤ nsample.getD n)) n k (r k))) i jj)
              (noise ii k i jj * sqrt (t2 (pickRow (decide (n ≤ nsample.getD n)) n k (r k)) c))) lims := by
  have hn0 : R.chain.length - b = n := by omega
  set draws := List.ofFn fun k : Fin (nsample.getD 0) => r k with hdraws
  obtain ⟨S, out, hS, hout⟩ := C80_returns (sqrt := sqrt) (exp := exp) (R := R) (burnin := b) hmod.1 (by omega)
    (fun k l hk => by
      rcases hs2 with h | ⟨hm, l', h, hl, -⟩
      · rw [h] at hk; cases hk
      · rw [h] at hk
        cases hk
        exact ⟨by omega, hm⟩) (sstype := none) (fun _ => hsst) (nsample := nsample) (draws := draws)
    (fun q hq => by
      subst hq
      rw [hdraws]
      simp at hM ⊢
      omega)
    (fun u hu => by
      rw [hdraws, List.mem_ofFn] at hu
      obtain ⟨k, rfl⟩ := hu
      exact ⟨(hr k).1.le, (hr k).2⟩) flag noise
  refine ⟨S, out, hS, hout, (C80_prediction hinj hS hout).1, (C80_credible hinj hS hout).1, ?_, ?_⟩
  all_goals
    have hpts : (defineSamplePoints (nsample.getD n) n draws).1 = List.ofFn fun k : Fin (min (nsample.getD n) n) =>
        ((pickRow (decide (n ≤ nsample.getD n)) n k (r k) : ℕ) : ℤ) := by
      refine samplePoints_pick hr ?_
      cases nsample with
      | none => exact .inl le_rfl
      | some q => exact .inr rfl
    have hval : ∀ (kk : ℕ) (idx : ℤ), (List.ofFn fun k : Fin (min (nsample.getD n) n) =>
        ((pickRow (decide (n ≤ nsample.getD n)) n k (r k) : ℕ) : ℤ))[kk]? = some idx →
        kk < min (nsample.getD n) n ∧ idx = (pickRow (decide (n ≤ nsample.getD n)) n kk (r kk) : ℕ) := by
      intro kk idx h
      obtain ⟨h1, h2⟩ := List.getElem?_eq_some_iff.1 h
      rw [List.length_ofFn] at h1
      rw [List.getElem_ofFn] at h2
      exact ⟨h1, h2.symm⟩
    have hresp : ∀ (ii : ℕ) (d : D) f (k kk : ℕ) y, sets[ii]? = some d → mf.own ii = some f →
        RowOf b (b + n) (pickRow (decide (n ≤ nsample.getD n)) n kk (r kk) : ℕ) k →
        kk < min (nsample.getD n) n → RespondsWith R f d ii k y → ∀ i < (sh ii).1, ∀ j < (sh ii).2,
        y.entry (sh ii).2 i j = g ii (t (pickRow (decide (n ≤ nsample.getD n)) n kk (r kk))) i j := by
      intro ii d f k kk y hd hf hk hkk hy i hi j hj
      obtain ⟨row, v, h1, h2, h3⟩ := hy
      rw [applying_zero hloc] at h3
      have hlt := pickRow_lt hkk (hr kk).2
      obtain ⟨-, -, hk⟩ := hk
      rw [if_pos (by omega)] at hk
      have hk' : k = b + pickRow (decide (n ≤ nsample.getD n)) n kk (r kk) := by omega
      rw [hk', ht _ hlt] at h1
      cases h1
      refine hmod.2 ii d f hd hf _ v y ⟨h2.1, fun k hk => ?_⟩ h3 i hi j hj
      rw [h2.2 k hk, hth k hk]
    have hdims : ∀ (ii : ℕ) (d : D) f y, sets[ii]? = some d → mf.own ii = some f →
        f d (List.ofFn R.theta) = .ok y → y.dims = sh ii := by
      intro ii d f y hd hf hy
      obtain ⟨f', hf', h⟩ := hmod.1 ii d hd
      rw [hf] at hf'
      cases hf'
      obtain ⟨y', hy', hs⟩ := h (List.ofFn R.theta)
      rw [hy] at hy'
      cases hy'
      exact hs
  · obtain ⟨-, iis, hiis, hcols⟩ := C80_credible hinj hS hout
    intro ii hii
    rw [hn0, hpts] at hiis
    obtain ⟨f, y0, cols, hf, hy0, h1, h2, h3⟩ := hcols ii sets[ii] (List.getElem?_eq_getElem hii)
    have hdim := hdims ii _ f y0 (List.getElem?_eq_getElem hii) hf hy0
    rw [hdim] at h2 h3
    refine ⟨cols, h1, h2, fun jj hjj => ?_⟩
    obtain ⟨lims, e1, e2⟩ := h3 jj hjj
    refine ⟨lims, e1, ?_⟩
    have := e2.curves (levels_mem _) (v := fun i k =>
      g ii (t (pickRow (decide (n ≤ nsample.getD n)) n k (r k))) i jj) fun kk idx x hidx hP i => by
        obtain ⟨k, y, hk, hy, -, hx⟩ := hP
        rw [hiis] at hidx
        obtain ⟨hkk, rfl⟩ := hval kk idx hidx
        rw [hx i]
        rw [hn] at hk
        exact hresp ii _ f k kk y (List.getElem?_eq_getElem hii) hf hk hkk hy i i.2 jj hjj
    rwa [hiis, List.length_ofFn] at this
  · intro pred hpred
    have hsome := ((C80_prediction hinj hS hout).1.1 (by rw [hpred]; rfl)).1
    rcases hs2 with h | ⟨hm, l, hl, hll, hlt⟩
    · rw [h] at hsome; cases hsome
    obtain ⟨hpl, iis, ncols, hiis, hnl, hcols⟩ := (C80_prediction hinj hS hout).2 m l pred hl hpred
    rw [hn0, hpts] at hiis
    have hnc : ncols = (List.range sets.length).map fun ii => (sh ii).2 := by
      refine List.ext_getElem? fun ii => ?_
      by_cases hii : ii < sets.length
      · obtain ⟨f, y0, cols, hf, hy0, h1, -⟩ := hcols ii sets[ii] (List.getElem?_eq_getElem hii)
        rw [h1, hdims ii _ f y0 (List.getElem?_eq_getElem hii) hf hy0, List.getElem?_map, List.getElem?_range hii]
        rfl
      · rw [List.getElem?_eq_none (by omega), List.getElem?_eq_none (by simp; omega)]
    refine ⟨hpl, fun ii hii => ?_⟩
    obtain ⟨f, y0, cols, hf, hy0, -, h1, h2, h3⟩ := hcols ii sets[ii] (List.getElem?_eq_getElem hii)
    have hdim := hdims ii _ f y0 (List.getElem?_eq_getElem hii) hf hy0
    rw [hdim] at h2 h3
    refine ⟨cols, h1, h2, fun jj hjj => ?_⟩
    obtain ⟨lims, e1, e2⟩ := h3 jj hjj
    obtain ⟨c, hc⟩ : ∃ c : Fin m, VarianceColumn ncols m ii jj c := by
      obtain ⟨sample, q, -, hs, -⟩ := id e2
      have hlen : 0 < iis.length := by have := e2.two_le; omega
      obtain ⟨x, -, k, k2, y, s2row, c, sst, -, -, -, -, -, hc, -⟩ := hs 0 iis[0] (List.getElem?_eq_getElem hlen)
      exact ⟨c, hc⟩
    refine ⟨lims, c, e1, by rw [← hnc]; exact hc, ?_⟩
    have := e2.curves (levels_mem _) (v := fun i k => observed sqrt exp (R.sstype.getD 0)
        (g ii (t (pickRow (decide (n ≤ nsample.getD n)) n k (r k))) i jj)
        (noise ii k i jj * sqrt (t2 (pickRow (decide (n ≤ nsample.getD n)) n k (r k)) c))) fun kk idx x hidx hP i => by
        obtain ⟨k, k2, y, s2row, c', sst, hk, hy, -, hk2, hs2r, hc', -, hsst', hx⟩ := hP
        rw [hiis] at hidx
        obtain ⟨hkk, rfl⟩ := hval kk idx hidx
        have hcc : c' = c := Fin.ext (varianceColumn_unique hc' hc)
        subst hcc
        have hlt' := pickRow_lt hkk (hr kk).2
        rw [hx i, hsst' rfl]
        rw [hn] at hk
        rw [hresp ii _ f k kk y (List.getElem?_eq_getElem hii) hf hk hkk hy i i.2 jj hjj]
        obtain ⟨-, -, hk2⟩ := hk2
        rw [if_pos (by omega)] at hk2
        have hk' : k2 = b + pickRow (decide (n ≤ nsample.getD n)) n kk (r kk) := by omega
        rw [hk', hlt _ hlt'] at hs2r
        cases hs2r
        rfl
    rwa [hiis, List.length_ofFn] at this

end matrix

/-! ### Calibrated curves -/

section calibrated
variable {Y : Type} [MeasurableSpace Y] {ρ : Measure Y} [IsProbabilityMeasure ρ]

/-- There is one curve for every level, with `nrow` points.  Point `i` of the curve for level `p` cuts off the
probability `p` of `V · i`, and between the points of two curves lies the difference of their levels, both up to `η`. -/
structure Calibrated (ρ : Measure Y) (V : Y → ℕ → ℝ) (lv : List ℝ) (nrow : ℕ) (η : ℝ) (lims : List (List ℝ)) : Prop where
  curves : lims.length = lv.length
  points : ∀ l ∈ lims, l.length = nrow
  level : ∀ (a : ℕ) p l, lv[a]? = some p → lims[a]? = some l → ∀ (i : ℕ) q, l[i]? = some q →
    p - η ≤ ρ.real {z | V z i ≤ q} ∧ ρ.real {z | V z i < q} ≤ p + η
  band : ∀ (a c : ℕ) p p' l l', lv[a]? = some p → lv[c]? = some p' → p ≤ p' → lims[a]? = some l → lims[c]? = some l' →
    ∀ (i : ℕ) q q', l[i]? = some q → l'[i]? = some q' →
    p' - p - η ≤ ρ.real {z | q ≤ V z i ∧ V z i ≤ q'} ∧ ρ.real {z | q < V z i ∧ V z i < q'} ≤ p' - p + η

theorem CurvesOf.calibrated {V : Y → ℕ → ℝ} {lv : List ℝ} (hlv : ∀ q ∈ lv, 0 ≤ q ∧ q ≤ 1) {nrow M : ℕ}
    (hV : ∀ i < nrow, Measurable fun z => V z i) {v : ℕ → ℕ → ℝ} {lims : List (List ℝ)}
    (h : CurvesOf lv nrow M v lims) {η : ℝ} (hη : 0 < η)
    (hq : ∀ i < nrow, ∀ p, 0 ≤ p → p ≤ 1 → ∀ q,
      q = interpAt ((List.ofFn fun k : Fin M => v i k).insertionSort (· ≤ ·)) (((M : ℝ) - 1) * p) →
      p - η / 2 ≤ ρ.real {z | V z i ≤ q} ∧ ρ.real {z | V z i < q} ≤ p + η / 2) :
    Calibrated ρ V lv nrow η lims := by
  obtain ⟨h1, h2, h3⟩ := h
  have key : ∀ (a : ℕ) p l, lv[a]? = some p → lims[a]? = some l → ∀ (i : ℕ) q, l[i]? = some q → i < nrow ∧
      p - η / 2 ≤ ρ.real {z | V z i ≤ q} ∧ ρ.real {z | V z i < q} ≤ p + η / 2 := by
    intro a p l hp hl i q hqi
    have hi : i < nrow := by
      rw [← h2 l (List.mem_of_getElem? hl)]
      exact (List.getElem?_eq_some_iff.1 hqi).1
    have := hlv p (List.mem_of_getElem? hp)
    exact ⟨hi, hq i hi p this.1 this.2 q (h3 a p l hp hl i q hqi)⟩
  refine ⟨h1, h2, fun a p l hp hl i q hqi => ?_, fun a c p p' l l' hp hp' hpp hl hl' i q q' hqi hqi' => ?_⟩
  · obtain ⟨-, k1, k2⟩ := key a p l hp hl i q hqi
    constructor <;> linarith
  · obtain ⟨hi, a1, a2⟩ := key a p l hp hl i q hqi
    obtain ⟨-, b1, b2⟩ := key c p' l' hp' hl' i q' hqi'
    constructor
    · have hsub : {z | V z i ≤ q'} ⊆ {z | q ≤ V z i ∧ V z i ≤ q'} ∪ {z | V z i < q} := by
        intro z hz
        rcases lt_or_ge (V z i) q with h | h
        · exact .inr h
        · exact .inl ⟨h, hz⟩
      have := (measureReal_mono (μ := ρ) hsub).trans (measureReal_union_le _ _)
      linarith
    · by_cases hlh : q < q'
      · have hd : Disjoint {z | q < V z i ∧ V z i < q'} {z | V z i ≤ q} := by
          rw [Set.disjoint_left]
          intro z h1 h2
          exact absurd h1.1 (not_lt.2 h2)
        have hu := measureReal_union (μ := ρ) hd (measurableSet_le (hV i hi) measurable_const)
        have hsub : {z | q < V z i ∧ V z i < q'} ∪ {z | V z i ≤ q} ⊆ {z | V z i < q'} := by
          rintro z (hz | hz)
          · exact hz.2
          · exact lt_of_le_of_lt hz hlh
        have := measureReal_mono (μ := ρ) hsub
        linarith
      · have : {z | q < V z i ∧ V z i < q'} = ∅ := by
          ext z
          simp only [Set.mem_ofPred_eq, Set.mem_empty_iff_false, iff_false, not_and]
          intro h1 h2
          exact hlh (h1.trans h2)
        rw [this]
        simp
        linarith

end calibrated

/-! ### The draws -/

/-- The draws for one sample: a uniform number for the row and normal numbers for the observation errors (data set,
row, column).  Each normal number is standard normal and independent of the uniform one. -/
def IdealDraws (ν : Measure (ℝ × (ℕ → ℕ → ℕ → ℝ))) : Prop :=
  ∀ ii i j, ν.map (fun w => (w.1, w.2 ii i j)) = (volume.restrict (Set.Icc (0 : ℝ) 1)).prod (gaussianReal 0 1)

theorem IdealDraws.prob {ν : Measure (ℝ × (ℕ → ℕ → ℕ → ℝ))} (h : IdealDraws ν) : IsProbabilityMeasure ν := by
  have hm : Measurable fun w : ℝ × (ℕ → ℕ → ℕ → ℝ) => (w.1, w.2 0 0 0) :=
    measurable_fst.prodMk ((measurable_pi_apply 0).comp ((measurable_pi_apply 0).comp
      ((measurable_pi_apply 0).comp measurable_snd)))
  refine ⟨?_⟩
  have h1 := congrArg (fun m => m Set.univ) (h 0 0 0)
  simp only [Measure.map_apply hm MeasurableSet.univ, Set.preimage_univ] at h1
  rw [h1, ← Set.univ_prod_univ, Measure.prod_prod]
  simp

theorem IdealDraws.uniform {ν : Measure (ℝ × (ℕ → ℕ → ℕ → ℝ))} [IsProbabilityMeasure ν] (h : IdealDraws ν) :
    ∀ᵐ w ∂(Measure.infinitePi fun _ : ℕ => ν), ∀ k, 0 < (w k).1 ∧ (w k).1 ≤ 1 := by
  rw [ae_all_iff]
  intro k
  have hm : Measurable fun w : ℝ × (ℕ → ℕ → ℕ → ℝ) => (w.1, w.2 0 0 0) :=
    measurable_fst.prodMk ((measurable_pi_apply 0).comp ((measurable_pi_apply 0).comp
      ((measurable_pi_apply 0).comp measurable_snd)))
  have h1 : ∀ᵐ w ∂ν, 0 < w.1 ∧ w.1 ≤ 1 := by
    have h2 : ∀ᵐ z ∂((volume.restrict (Set.Icc (0 : ℝ) 1)).prod (gaussianReal 0 1)), 0 < z.1 ∧ z.1 ≤ 1 := by
      refine Measure.quasiMeasurePreserving_fst.ae (p := fun u : ℝ => 0 < u ∧ u ≤ 1) ?_
      rw [ae_restrict_iff' measurableSet_Icc]
      have h0 : ∀ᵐ u : ℝ, u ≠ 0 := by simp [ae_iff]
      filter_upwards [h0] with u hu hI
      exact ⟨lt_of_le_of_ne hI.1 (Ne.symm hu), hI.2⟩
    rw [← h 0 0 0] at h2
    exact ae_of_ae_map hm.aemeasurable h2
  exact (measurePreserving_eval_infinitePi (fun _ : ℕ => ν) k).quasiMeasurePreserving.ae h1

/-! ### The results of a run as real numbers -/

section results
variable {N m : ℕ} {flags : Fin N → Bool}

/-- the results of a run whose entries are finite, as they are read by `PredictionIntervals`; no parameter is marked as
belonging to one data set -/
structure RealResults (res : Results XR flags m) (sst : Option ℤ) (R : IntResults ℝ N (nS flags)) : Prop where
  chain : res.chain = R.chain.map finVec
  theta : res.theta = finVec R.theta
  s2chain : res.s2chain = none ∧ R.s2chain = none ∨
    ∃ l : List (Fin m → ℝ), res.s2chain = some (l.map finVec) ∧ R.s2chain = some ⟨m, l⟩
  parind : R.parind = parindOf flags
  loc : ∀ k, R.loc k = 0
  sstype : R.sstype = sst

theorem belongsTo_real {specs sp : Fin N → ParamSpec XR} {x : Fin (nS flags) → ℝ} (hsp : StartsAt flags specs x sp)
    {th0 : Fin N → ℝ} (hth0 : ∀ k, flags k = false → (specs k).theta0 = .fin (th0 k)) {row : Fin (nS flags) → ℝ}
    {theta : Vec XR N} (h : BelongsTo flags sp (finVec row) theta) :
    ∃ th : Fin N → ℝ, theta = finVec th ∧ ∀ k, (∀ j, parindOf flags j ≠ k) → th k = th0 k := by
  have hk : ∀ k, ∃ r, theta k = .fin r ∧ ((∀ j, parindOf flags j ≠ k) → r = th0 k) := by
    intro k
    by_cases hf : ∀ j, parindOf flags j ≠ k
    · refine ⟨th0 k, ?_, fun _ => rfl⟩
      have := parindOf_ne_iff.1 hf
      rw [h.2 k this, hsp.2 k this, hth0 k this]
    · push Not at hf
      obtain ⟨j, rfl⟩ := hf
      refine ⟨row j, ?_, fun hne => absurd rfl (hne j)⟩
      have h1 := congrArg (fun l : List XR => l[j.val]?) h.1
      simp only [List.getElem?_map, List.getElem?_ofFn, j.2, dif_pos] at h1
      have h2 : ((List.finRange N).filter flags)[j.val]? = some (parindOf flags j) :=
        List.getElem?_eq_getElem j.2
      rw [h2] at h1
      exact Option.some.inj h1
  choose th h1 h2 using hk
  exact ⟨th, funext h1, h2⟩

theorem eq_map_finVec {n k : ℕ} {l : List (Vec XR n)} (hl : l.length = k) {t : ℕ → Fin n → ℝ}
    (ht : ∀ j < k, l[j]? = some (finVec (t j))) : l = (List.ofFn fun j : Fin k => t j).map finVec := by
  refine List.ext_getElem? fun j => ?_
  by_cases hj : j < k
  · rw [ht j hj, List.getElem?_map, List.getElem?_ofFn, dif_pos hj]
    rfl
  · rw [List.getElem?_eq_none (by omega), List.getElem?_eq_none (by simp; omega)]

end results

section fixed
variable {σ : Type} [MeasurableSpace σ] {μ : Measure σ} {G : Rng σ XR} {N m : ℕ} {flags : Fin N → Bool}
  [IsProbabilityMeasure μ] {U : UserFuns XR N (nS flags) m} {L : Lapack XR}
  {specs : Fin N → ParamSpec XR} {sp : (Fin (nS flags) → ℝ) → Fin N → ParamSpec XR} {opts : SimOpts XR}
  {extra : ExtraOpts XR (nS flags)} {ms : ModelSettings XR} {data : Data}
  {q : (Fin (nS flags) → ℝ) → Fin m → ℝ} {r : (Fin (nS flags) → ℝ) → ℝ} {v : Fin m → ℝ}

/-- **C120, credible intervals.** Take a run from any start within the limits, with fixed error variances, drop a
burn-in `b` and let `generate_prediction_intervals` use `nsample` rows drawn at random, or all rows.  If the number of
rows used is large enough, then with probability at least `1 - ε` the run, the preparation and the generation succeed
and for every output column of every data set the nine curves are calibrated: between any two of them lies the
difference of their levels in posterior probability, up to `η`. -/
theorem C120_credible {D : Type}
    (H : ∀ k : ℤ, 1 < k → FixedProblem U G L specs sp { opts with nsimu := k } extra ms data q r v)
    (D1 : IdealRng G (nS flags) μ) (hZ0 : posteriorMeasure flags specs q r v Set.univ ≠ 0)
    (hZt : posteriorMeasure flags specs q r v Set.univ ≠ ⊤) {x : Fin (nS flags) → ℝ}
    (hx : InLimits flags specs (finVec x)) {η ε : ℝ} (hη : 0 < η) (hε : 0 < ε)
    {th0 : Fin N → ℝ} (hth0 : ∀ k, flags k = false → (specs k).theta0 = .fin (th0 k))
    {sets : List D} {mf : ModelFun D ℝ} {sh : ℕ → ℕ × ℕ} {g : ℕ → (Fin (nS flags) → ℝ) → ℕ → ℕ → ℝ}
    (hg : ∀ ii i j, Measurable fun θ => g ii θ i j) (hmod : GivesMatrix (parindOf flags) th0 mf sets sh g)
    {sst : Option ℤ} (hsst : sst.getD 0 ∈ [0, 1, 2]) (flag : PyFlag)
    {ν : Measure (ℝ × (ℕ → ℕ → ℕ → ℝ))} (hν : IdealDraws ν) :
    ∃ K : ℕ, ∀ (k b : ℕ) (nsample : Option ℕ), K ≤ min (nsample.getD (k - b)) (k - b) → b ≤ k - b → ∀ fuel,
      1 - ε ≤ (μ.prod (Measure.infinitePi fun _ : ℕ => ν)).real {z | ∃ out R S o,
        runSimulation U G L fuel (newObj (sp x) { opts with nsimu := k } extra ms data) z.1 false = .ok out ∧
        RealResults out.results sst R ∧ setupIntervals R sets mf b = .ok S ∧
        generateIntervals Real.sqrt Real.exp S none nsample flag
          (List.ofFn fun k : Fin (nsample.getD 0) => (z.2 k).1) (fun ii k i j => (z.2 k).2 ii i j) = .ok o ∧
        o.prediction = none ∧ o.credible.length = sets.length ∧
        ∀ ii < sets.length, ∃ cols, o.credible[ii]? = some cols ∧ cols.length = (sh ii).2 ∧
          ∀ jj < (sh ii).2, ∃ lims, cols[jj]? = some lims ∧
            Calibrated (posteriorLaw flags specs q r v) (fun θ i => g ii θ i jj) (levels false) (sh ii).1 η lims} := by
  obtain ⟨hS0, T, hT, hsp, hkeep, hrun⟩ := fixed_harris H D1 hZ0 hZt
  have hprob := hT.prob
  have hνp := hν.prob
  obtain ⟨K, hK2, hK⟩ := hT.resampled (measurableSet_inLimits specs) hsp
    (fun y hy => ae_of_all _ fun s => hkeep y hy s) hS0 hx (η := η / 2) (ε := ε) (by positivity) hε
    (ι := Σ ii : Fin sets.length, Fin (sh ii).1 × Fin (sh ii).2) (γ := gaussianReal 0 1)
    (V := fun a z => g a.1 z.1 a.2.1 a.2.2) (fun a => (hg a.1 a.2.1 a.2.2).comp measurable_fst) (ν := ν)
    (u := Prod.fst) measurable_fst (ζ := fun a w => w.2 a.1 a.2.1 a.2.2)
    (fun a => (measurable_pi_apply _).comp ((measurable_pi_apply _).comp
      ((measurable_pi_apply _).comp measurable_snd))) fun a => hν a.1 a.2.1 a.2.2
  refine ⟨K, fun k b nsample hKn hbn fuel => ?_⟩
  obtain ⟨B, hB, hBε, hgood⟩ := hK (k - b) b (min (nsample.getD (k - b)) (k - b)) hKn (min_le_right _ _) hbn
    (decide (k - b ≤ nsample.getD (k - b))) fun h => min_eq_right (of_decide_eq_true h)
  have hk2 : 2 ≤ k - b := hK2.trans (hKn.trans (min_le_right _ _))
  calc 1 - ε ≤ 1 - (μ.prod (Measure.infinitePi fun _ : ℕ => ν)).real B := by linarith
    _ = (μ.prod (Measure.infinitePi fun _ : ℕ => ν)).real Bᶜ := (probReal_compl_eq_one_sub hB).symm
    _ ≤ _ := by
      refine ENNReal.toReal_mono (measure_ne_top _ _) (measure_mono_ae ?_)
      filter_upwards [Measure.quasiMeasurePreserving_snd.ae hν.uniform] with z hu hz
      obtain ⟨out, ho, hr⟩ := hrun k (by omega) x hx z.1 fuel
      obtain ⟨hlen0, -, -, last, hl, hlast⟩ := C02_chain_records_moves ((H k (by omega)).valid x hx).noRestart ho
      have hlen : out.results.chain.length = k := by
        have : (out.results.chain.length : ℤ) = k := hlen0
        exact_mod_cast this
      rw [hlen, hr (k - 1) (by omega)] at hl
      cases hl
      obtain ⟨th, hth1, hth2⟩ := belongsTo_real ((H 2 (by norm_num)).starts x) hth0 hlast
      have hs2 : out.results.s2chain = none :=
        ((run_updatesigma ho).1 (H 2 (by norm_num)).noSampling.2 (H 2 (by norm_num)).noSampling.1).2
      let R : IntResults ℝ N (nS flags) :=
        { chain := List.ofFn fun j : Fin k => (T^[(j : ℕ)] (x, z.1)).1, s2chain := none, parind := parindOf flags,
          loc := fun _ => 0, theta := th, sstype := sst }
      have hR : RealResults out.results sst R :=
        ⟨eq_map_finVec hlen (t := fun j => (T^[j] (x, z.1)).1) fun j hj => hr j (by omega), hth1, .inl ⟨hs2, rfl⟩, rfl,
          fun _ => rfl, rfl⟩
      obtain ⟨S, o, h1, h2, h3, h4, h5, -⟩ := intervals_values (R := R) (parindOf_injective flags) (fun _ => rfl) hth2
        hmod (b := b) (n := k - b) (by simp [R]; omega) (t := fun j => (T^[b + j] (x, z.1)).1)
        (fun j hj => by simp only [R]; rw [List.getElem?_ofFn, dif_pos (by omega)])
        (m := m) (t2 := fun _ _ => 0) (.inl rfl) hsst (nsample := nsample) (hK2.trans hKn) hu flag
        (fun ii k i j => (z.2 k).2 ii i j) (sqrt := Real.sqrt) (exp := Real.exp)
      have hnone : o.prediction = none := by
        cases hp : o.prediction with
        | none => rfl
        | some pr => rw [hp] at h3; exact absurd (h3.1 rfl).1 (by simp [R])
      refine ⟨out, R, S, o, ho, hR, h1, h2, hnone, h4, fun ii hii => ?_⟩
      obtain ⟨cols, c1, c2, c3⟩ := h5 ii hii
      refine ⟨cols, c1, c2, fun jj hjj => ?_⟩
      obtain ⟨lims, d1, d2⟩ := c3 jj hjj
      refine ⟨lims, d1, ?_⟩
      rw [hnone] at d2
      refine d2.calibrated (levels_mem _) (fun i _ => hg ii i jj) hη fun i hi p p0 p1 qq hqq => ?_
      have := hgood z.1 z.2 hz ⟨⟨ii, hii⟩, ⟨i, hi⟩, ⟨jj, hjj⟩⟩ p p0 p1 qq hqq
      have hpr : ∀ E : Set (Fin (nS flags) → ℝ), ((posteriorLaw flags specs q r v).prod (gaussianReal 0 1)).real
          {z | z.1 ∈ E} = (posteriorLaw flags specs q r v).real E := fun E => by
        rw [show {z : (Fin (nS flags) → ℝ) × ℝ | z.1 ∈ E} = E ×ˢ Set.univ by ext z; simp, measureReal_prod_prod]
        simp
      rw [← hpr, ← hpr]
      exact this

end fixed

section joint
variable {σ : Type} [MeasurableSpace σ] {μ : Measure σ} [IsProbabilityMeasure μ] {G : Rng σ XR} {N m : ℕ}
  {flags : Fin N → Bool} {U : UserFuns XR N (nS flags) m} {L : Lapack XR}
  {specs : Fin N → ParamSpec XR} {sp : (Fin (nS flags) → ℝ) → Fin N → ParamSpec XR} {opts : SimOpts XR}
  {extra : ExtraOpts XR (nS flags)} {ms : (Fin m → ℝ) → ModelSettings XR} {data : Data}
  {q : (Fin (nS flags) → ℝ) → Fin m → ℝ} {r : (Fin (nS flags) → ℝ) → ℝ} {Nobs N0 S20 : Fin m → ℝ}
  {dom : Set ((Fin (nS flags) → ℝ) × (Fin m → ℝ))}

theorem measurable_observed {Y : Type} [MeasurableSpace Y] {f e : Y → ℝ} (hf : Measurable f) (he : Measurable e) (s : ℤ) :
    Measurable fun y => observed Real.sqrt Real.exp s (f y) (e y) := by
  unfold observed
  split_ifs
  · exact hf.add he
  · exact (hf.sqrt.add he).pow_const 2
  · exact hf.mul he.exp

/-- **C120, prediction intervals.** As `C120_credible`, with sampled error variances.  The curves of the credible
intervals are calibrated with the posterior probability of parameters and variances, as before.  Those of the
prediction intervals are calibrated with the posterior predictive probability: of an observation with the model value at
parameters `θ` and a normal error whose variance is that of the column, parameters and variances being distributed by
the posterior.  Prediction intervals are generated unless they are switched off. -/
theorem C120_prediction {D : Type}
    (H : ∀ k : ℤ, 1 < k → JointProblem U G L specs sp { opts with nsimu := k } extra ms data q r Nobs N0 S20 dom)
    (D0 : IdealRng G (nS flags) μ) (D1 : IdealRng G 1 μ)
    (hZ0 : jointPosterior flags specs q r Nobs N0 S20 Set.univ ≠ 0)
    (hZt : jointPosterior flags specs q r Nobs N0 S20 Set.univ ≠ ⊤)
    {p : (Fin (nS flags) → ℝ) × (Fin m → ℝ)} (hpd : p ∈ dom) {η ε : ℝ} (hη : 0 < η) (hε : 0 < ε)
    {th0 : Fin N → ℝ} (hth0 : ∀ k, flags k = false → (specs k).theta0 = .fin (th0 k))
    {sets : List D} {mf : ModelFun D ℝ} {sh : ℕ → ℕ × ℕ} {g : ℕ → (Fin (nS flags) → ℝ) → ℕ → ℕ → ℝ}
    (hg : ∀ ii i j, Measurable fun θ => g ii θ i j) (hmod : GivesMatrix (parindOf flags) th0 mf sets sh g)
    (hm : m = 1 ∨ m = ((List.range sets.length).map fun ii => (sh ii).2).sum ∨ m = sets.length)
    {sst : Option ℤ} (hsst : sst.getD 0 ∈ [0, 1, 2]) (_hroot : sst.getD 0 = 1 → ∀ ii θ i j, 0 ≤ g ii θ i j)
    (flag : PyFlag) {ν : Measure (ℝ × (ℕ → ℕ → ℕ → ℝ))} (hν : IdealDraws ν) :
    ∃ K0 : ℕ, ∀ (k b : ℕ) (nsample : Option ℕ), K0 ≤ min (nsample.getD (k - b)) (k - b) → b ≤ k - b →
      1 - ε ≤ (μ.prod (Measure.infinitePi fun _ : ℕ => ν)).real {z | ∃ K, ∀ fuel, K ≤ fuel → ∃ out R S o,
        runSimulation U G L fuel (newObj (sp p.1) { opts with nsimu := k } extra (ms p.2) data) z.1 false = .ok out ∧
        RealResults out.results sst R ∧ setupIntervals R sets mf b = .ok S ∧
        generateIntervals Real.sqrt Real.exp S none nsample flag
          (List.ofFn fun k : Fin (nsample.getD 0) => (z.2 k).1) (fun ii k i j => (z.2 k).2 ii i j) = .ok o ∧
        (o.prediction.isSome ↔ flag ≠ .bool false ∧ flag ≠ .str "off") ∧ o.credible.length = sets.length ∧
        (∀ ii < sets.length, ∃ cols, o.credible[ii]? = some cols ∧ cols.length = (sh ii).2 ∧
          ∀ jj < (sh ii).2, ∃ lims, cols[jj]? = some lims ∧
            Calibrated (jointLaw flags specs q r Nobs N0 S20) (fun z i => g ii z.1 i jj) (levels o.prediction.isSome)
              (sh ii).1 η lims) ∧
        ∀ pred, o.prediction = some pred → pred.length = sets.length ∧
          ∀ ii < sets.length, ∃ cols, pred[ii]? = some cols ∧ cols.length = (sh ii).2 ∧
          ∀ jj < (sh ii).2, ∃ lims, ∃ c : Fin m, cols[jj]? = some lims ∧
            VarianceColumn ((List.range sets.length).map fun ii => (sh ii).2) m ii jj c ∧
            Calibrated ((jointLaw flags specs q r Nobs N0 S20).prod (gaussianReal 0 1))
              (fun z i => observed Real.sqrt Real.exp (sst.getD 0) (g ii z.1.1 i jj) (z.2 * Real.sqrt (z.1.2 c)))
              (levels true) (sh ii).1 η lims} := by
  obtain ⟨hS0, T, hT, hsp, hkeep, hrun⟩ := joint_harris H D0 D1 hZ0 hZt ⟨p, hpd⟩
  have hprob := hT.prob
  have hνp := hν.prob
  have hp := (H 2 (by norm_num)).within p hpd
  have hobs : ∀ ii i jj (c : Fin m), Measurable fun z : ((Fin (nS flags) → ℝ) × (Fin m → ℝ)) × ℝ =>
      observed Real.sqrt Real.exp (sst.getD 0) (g ii z.1.1 i jj) (z.2 * Real.sqrt (z.1.2 c)) := fun ii i jj c =>
    measurable_observed ((hg ii i jj).comp (measurable_fst.comp measurable_fst))
      (measurable_snd.mul (((measurable_pi_apply c).comp (measurable_snd.comp measurable_fst)).sqrt)) _
  obtain ⟨K, hK2, hK⟩ := hT.resampled (measurableSet_jointStarts flags specs m) hsp hkeep hS0 hp (η := η / 2) (ε := ε)
    (by positivity) hε
    (ι := (Σ ii : Fin sets.length, Fin (sh ii).1 × Fin (sh ii).2) × Option (Fin m)) (γ := gaussianReal 0 1)
    (V := fun a z => match a.2 with
      | none => g a.1.1 z.1.1 a.1.2.1 a.1.2.2
      | some c => observed Real.sqrt Real.exp (sst.getD 0) (g a.1.1 z.1.1 a.1.2.1 a.1.2.2) (z.2 * Real.sqrt (z.1.2 c)))
    (fun a => by
      obtain ⟨a, c⟩ := a
      cases c with
      | none => exact (hg a.1 a.2.1 a.2.2).comp (measurable_fst.comp measurable_fst)
      | some c => exact hobs a.1 a.2.1 a.2.2 c) (ν := ν)
    (u := Prod.fst) measurable_fst (ζ := fun a w => w.2 a.1.1 a.1.2.1 a.1.2.2)
    (fun a => (measurable_pi_apply _).comp ((measurable_pi_apply _).comp
      ((measurable_pi_apply _).comp measurable_snd))) fun a => hν a.1.1 a.1.2.1 a.1.2.2
  refine ⟨K, fun k b nsample hKn hbn => ?_⟩
  obtain ⟨B, hB, hBε, hgood⟩ := hK (k - b) b (min (nsample.getD (k - b)) (k - b)) hKn (min_le_right _ _) hbn
    (decide (k - b ≤ nsample.getD (k - b))) fun h => min_eq_right (of_decide_eq_true h)
  have hk2 : 2 ≤ k - b := hK2.trans (hKn.trans (min_le_right _ _))
  calc 1 - ε ≤ 1 - (μ.prod (Measure.infinitePi fun _ : ℕ => ν)).real B := by linarith
    _ = (μ.prod (Measure.infinitePi fun _ : ℕ => ν)).real Bᶜ := (probReal_compl_eq_one_sub hB).symm
    _ ≤ _ := by
      refine ENNReal.toReal_mono (measure_ne_top _ _) (measure_mono_ae ?_)
      filter_upwards [Measure.quasiMeasurePreserving_snd.ae hν.uniform,
        Measure.quasiMeasurePreserving_fst.ae (hrun k (by omega) p hpd)] with z hu hs hz
      obtain ⟨K1, hK1⟩ := hs
      refine ⟨K1, fun fuel hfuel => ?_⟩
      obtain ⟨out, ho, s2, hs2, hr⟩ := hK1 fuel hfuel
      obtain ⟨hlen0, -, -, last, hl, hlast⟩ := C02_chain_records_moves ((H k (by omega)).valid p hpd).noRestart ho
      have hlen : out.results.chain.length = k := by
        have : (out.results.chain.length : ℤ) = k := hlen0
        exact_mod_cast this
      rw [hlen, (hr (k - 1) (by omega)).1] at hl
      cases hl
      obtain ⟨th, hth1, hth2⟩ := belongsTo_real ((H 2 (by norm_num)).starts p.1) hth0 hlast
      have hs2l : s2.length = k := by
        obtain ⟨-, n, hn, -, -, -, hcl, -, h2l, -⟩ := fresh_logs ho
        rw [h2l s2 hs2, ← hcl, hlen]
      let R : IntResults ℝ N (nS flags) :=
        { chain := List.ofFn fun j : Fin k => (T^[(j : ℕ)] (p, z.1)).1.1,
          s2chain := some ⟨m, List.ofFn fun j : Fin k => (T^[(j : ℕ)] (p, z.1)).1.2⟩, parind := parindOf flags,
          loc := fun _ => 0, theta := th, sstype := sst }
      have hR : RealResults out.results sst R :=
        ⟨eq_map_finVec hlen (t := fun j => (T^[j] (p, z.1)).1.1) fun j hj => (hr j (by omega)).1, hth1,
          .inr ⟨_, by rw [hs2, eq_map_finVec hs2l (t := fun j => (T^[j] (p, z.1)).1.2) fun j hj => (hr j (by omega)).2],
            rfl⟩, rfl, fun _ => rfl, rfl⟩
      obtain ⟨S, o, h1, h2, h3, h4, h5, h6⟩ := intervals_values (R := R) (parindOf_injective flags) (fun _ => rfl) hth2
        hmod (b := b) (n := k - b) (by simp [R]; omega) (t := fun j => (T^[b + j] (p, z.1)).1.1)
        (fun j hj => by simp only [R]; rw [List.getElem?_ofFn, dif_pos (by omega)])
        (m := m) (t2 := fun j => (T^[b + j] (p, z.1)).1.2) (.inr ⟨hm, _, rfl, by simp; omega,
          fun j hj => by rw [List.getElem?_ofFn, dif_pos (by omega)]⟩) hsst (nsample := nsample) (hK2.trans hKn) hu flag
        (fun ii k i j => (z.2 k).2 ii i j) (sqrt := Real.sqrt) (exp := Real.exp)
      refine ⟨out, R, S, o, ho, hR, h1, h2, h3.trans ⟨fun h => h.2, fun h => ⟨rfl, h⟩⟩, h4, fun ii hii => ?_,
        fun pred hpred => ?_⟩
      · obtain ⟨cols, c1, c2, c3⟩ := h5 ii hii
        refine ⟨cols, c1, c2, fun jj hjj => ?_⟩
        obtain ⟨lims, d1, d2⟩ := c3 jj hjj
        refine ⟨lims, d1, ?_⟩
        refine d2.calibrated (levels_mem _) (fun i _ => (hg ii i jj).comp measurable_fst) hη fun i hi pp p0 p1 qq hqq => ?_
        have := hgood z.1 z.2 hz (⟨⟨ii, hii⟩, ⟨i, hi⟩, ⟨jj, hjj⟩⟩, none) pp p0 p1 qq hqq
        have hpr : ∀ E : Set ((Fin (nS flags) → ℝ) × (Fin m → ℝ)),
            ((jointLaw flags specs q r Nobs N0 S20).prod (gaussianReal 0 1)).real {z | z.1 ∈ E} =
              (jointLaw flags specs q r Nobs N0 S20).real E := fun E => by
          rw [show {z : ((Fin (nS flags) → ℝ) × (Fin m → ℝ)) × ℝ | z.1 ∈ E} = E ×ˢ Set.univ by ext z; simp,
            measureReal_prod_prod]
          simp
        rw [← hpr, ← hpr]
        exact this
      · obtain ⟨e1, e2⟩ := h6 pred hpred
        refine ⟨e1, fun ii hii => ?_⟩
        obtain ⟨cols, c1, c2, c3⟩ := e2 ii hii
        refine ⟨cols, c1, c2, fun jj hjj => ?_⟩
        obtain ⟨lims, c, d1, d2, d3⟩ := c3 jj hjj
        refine ⟨lims, c, d1, d2, ?_⟩
        exact d3.calibrated (levels_mem _) (fun i _ => hobs ii i jj c) hη fun i hi pp p0 p1 qq hqq =>
          hgood z.1 z.2 hz (⟨⟨ii, hii⟩, ⟨i, hi⟩, ⟨jj, hjj⟩⟩, some c) pp p0 p1 qq hqq

end joint

/-- **C120, full statement:** a band in the plot of the intervals labelled `label` % contains this posterior probability
at every point, up to `η`.
**Proved here:** so for all labels but 90; the band labelled 90 % contains 85 %. -/
theorem C120_shown_partial {Y : Type} [MeasurableSpace Y] {ρ : Measure Y} {V : Y → ℕ → ℝ} {pred : Bool} {nrow : ℕ} {η : ℝ}
    {lines : List (List ℝ)} (h : Calibrated ρ V (levels pred) nrow η lines) {kind kind' : IntKind} {time time' : List ℝ}
    {label label' : ℕ} {colour : String} {lo hi : List ℝ}
    (hb : ShowsBand kind pred lines time label (.band kind' label' colour time' lo hi)) :
    time' = time ∧ time.length = nrow ∧ ∀ i < nrow, ∃ l u, lo[i]? = some l ∧ hi[i]? = some u ∧
      (if label' = 90 then 85 / 100 else (label' : ℝ) / 100) - η ≤ ρ.real {z | l ≤ V z i ∧ V z i ≤ u} ∧
      ρ.real {z | l < V z i ∧ V z i < u} ≤ (if label' = 90 then 85 / 100 else (label' : ℝ) / 100) + η := by
  obtain ⟨c, lo', hi', a, b, la, lb, he, h1, h2, h3, h4, h5, h6, h7⟩ := hb
  cases he
  have hn := h.points lo (List.mem_of_getElem? h1)
  refine ⟨rfl, by omega, fun i hi0 => ?_⟩
  obtain ⟨l, hl⟩ : ∃ l, lo[i]? = some l := ⟨_, List.getElem?_eq_getElem (by omega)⟩
  obtain ⟨u, hu⟩ : ∃ u, hi[i]? = some u := ⟨_, List.getElem?_eq_getElem (by omega)⟩
  have hval : lb - la = if label = 90 then 85 / 100 else (label : ℝ) / 100 := by
    rcases h7 with ⟨r1, r2, r3⟩ | ⟨r1, r2⟩
    · rw [r2, r3, if_pos r1]; norm_num
    · split_ifs with h90
      · exfalso
        subst h90
        have e1 : la = 5 / 100 := by push_cast at r2; linarith
        have e2 : lb = 95 / 100 := by push_cast at r2; linarith
        have := List.mem_of_getElem? h4
        rw [e2] at this
        cases pred <;> simp [levels] at this <;> norm_num at this
      · exact r2
  have hle : la ≤ lb := by
    rw [← sub_nonneg, hval]
    split_ifs <;> positivity
  refine ⟨l, u, hl, hu, ?_⟩
  rw [← hval]
  exact h.band a b la lb lo hi h3 h4 hle h1 h2 i l u hl hu

/-! ### An instance -/

/-- independent draws: a uniform number and three-dimensional arrays of normal numbers -/
noncomputable def idealDraws : Measure (ℝ × (ℕ → ℕ → ℕ → ℝ)) :=
  (volume.restrict (Set.Icc (0 : ℝ) 1)).prod (Measure.infinitePi fun _ : ℕ => Measure.infinitePi fun _ : ℕ =>
    Measure.infinitePi fun _ : ℕ => gaussianReal 0 1)

theorem idealDraws_ideal : IdealDraws idealDraws := by
  intro ii i j
  have : IsProbabilityMeasure (volume.restrict (Set.Icc (0 : ℝ) 1)) := ⟨by simp⟩
  have h1 := measurePreserving_eval_infinitePi (fun _ : ℕ => Measure.infinitePi fun _ : ℕ =>
    Measure.infinitePi fun _ : ℕ => gaussianReal 0 1) ii
  have h2 := measurePreserving_eval_infinitePi (fun _ : ℕ => Measure.infinitePi fun _ : ℕ => gaussianReal 0 1) i
  have h3 := measurePreserving_eval_infinitePi (fun _ : ℕ => gaussianReal 0 1) j
  have h4 := h3.comp (h2.comp h1)
  exact ((MeasurePreserving.id (volume.restrict (Set.Icc (0 : ℝ) 1))).prod h4).map_eq

/-- a model with three output points: the parameter, its square and a constant -/
noncomputable def XRun.response : ModelFun Unit ℝ :=
  .single fun _ th => .ok (.vec [th.getD 0 0, th.getD 0 0 * th.getD 0 0, 5])

/-- what this model gives for parameter `θ` -/
noncomputable def XRun.values (_ : ℕ) (θ : Fin (nS XRun.flags) → ℝ) (i _ : ℕ) : ℝ :=
  if i = 0 then θ ⟨0, by decide⟩ else if i = 1 then θ ⟨0, by decide⟩ * θ ⟨0, by decide⟩ else 5

theorem XRun.values_measurable (ii i j : ℕ) : Measurable fun θ => XRun.values ii θ i j := by
  unfold XRun.values
  split_ifs
  · exact measurable_pi_apply _
  · exact (measurable_pi_apply _).mul (measurable_pi_apply _)
  · exact measurable_const

theorem XRun.response_gives : GivesMatrix (parindOf XRun.flags) (fun _ => 0) XRun.response [()] (fun _ => (3, 1))
    XRun.values := by
  refine ⟨fun ii d _ => ⟨_, rfl, fun th => ⟨_, rfl, rfl⟩⟩, fun ii d f _ hf θ w y hw hy i hi j hj => ?_⟩
  cases hf
  cases hy
  have h0 : w 0 = θ ⟨0, by decide⟩ := by
    rw [← hw.1 ⟨0, by decide⟩]
    congr 1
  obtain rfl : j = 0 := by simpa using hj
  have hi3 : i < 3 := hi
  interval_cases i <;> simp [ModelOut.entry, ModelOut.flat, XRun.values, h0]

/-- three times for the plot -/
def XRun.times (_ : Unit) : PlotData ℝ := { nx := 3, cx := 1, x := fun i _ => i, ny := 3, cy := 1, y := fun _ _ => 0 }

/-- C120 for the standard normal posterior: a run from start 1000000 without its first 1000 rows, and the model at
`nsample` rows drawn at random.  The 95 % band in the plot contains 95 % of the posterior probability at every
point.  **C120 is false for the label 90:** the band labelled 90 % contains at most 86 %. -/
theorem C120_ninety_refuted : ∃ K : ℕ, ∀ k nsample : ℕ, K ≤ nsample → nsample + 2000 ≤ k →
    1 - 1 / 100 ≤ ((coinLaw (nS XRun.flags)).prod (Measure.infinitePi fun _ : ℕ => idealDraws)).real
      {z | ∃ out R S o axes after time c95 lo95 hi95 c90 lo90 hi90,
        runSimulation XRun.user (coinRng (nS XRun.flags)) exactLapack 0
          (newObj (m := 1) (XRun.freeAt fun _ => 1000000) (defineSimulationOptions { nsimu := k, method := .dr })
            (XRun.extra 1 1) XRun.settings XRun.data) z.1 false = .ok out ∧
        RealResults out.results none R ∧ setupIntervals R [()] XRun.response 1000 = .ok S ∧
        generateIntervals Real.sqrt Real.exp S none (some nsample) (.bool true)
          (List.ofFn fun k : Fin nsample => (z.2 k).1) (fun ii k i j => (z.2 k).2 ii i j) = .ok o ∧
        plotPredictionIntervals o.credible o.prediction [XRun.times ()] (.bool true) false (fun _ => []) =
          .ok (axes, after) ∧
        .band .ci 95 c95 time lo95 hi95 ∈ after ((0, 0), 1, 1) ∧ .band .ci 90 c90 time lo90 hi90 ∈ after ((0, 0), 1, 1) ∧
        ∀ i < 3, (∃ l u, lo95[i]? = some l ∧ hi95[i]? = some u ∧
            95 / 100 - 1 / 100 ≤ (posteriorLaw (m := 1) XRun.flags XRun.freeSpecs
              (fun θ _ => θ ⟨0, by decide⟩ * θ ⟨0, by decide⟩) (fun _ => 0) (fun _ => 1)).real
                {θ | l ≤ XRun.values 0 θ i 0 ∧ XRun.values 0 θ i 0 ≤ u}) ∧
          ∃ l u, lo90[i]? = some l ∧ hi90[i]? = some u ∧
            (posteriorLaw (m := 1) XRun.flags XRun.freeSpecs
              (fun θ _ => θ ⟨0, by decide⟩ * θ ⟨0, by decide⟩) (fun _ => 0) (fun _ => 1)).real
                {θ | l < XRun.values 0 θ i 0 ∧ XRun.values 0 θ i 0 < u} ≤ 86 / 100} := by
  obtain ⟨K, h⟩ := C120_credible
    (opts := defineSimulationOptions { nsimu := 2, method := .dr }) XRun.freeProblem (coinIdeal _)
    XRun.free_mass.1 XRun.free_mass.2 (XRun.free_inLimits fun _ => 1000000) (η := 1 / 100) (ε := 1 / 100)
    (by norm_num) (by norm_num) (th0 := fun _ => 0) (fun k hk => by cases hk) XRun.values_measurable XRun.response_gives
    (sst := none) (by decide) (.bool true) idealDraws_ideal
  refine ⟨K, fun k nsample h1 h2 =>
    (h k 1000 (some nsample) (by simp; omega) (by omega) 0).trans ?_⟩
  have := idealDraws_ideal.prob
  refine measureReal_mono fun z hz => ?_
  obtain ⟨out, R, S, o, ho, hR, hS, hg, hpn, -, hc⟩ := hz
  have hinj : Injective R.parind := by rw [hR.parind]; exact parindOf_injective _
  obtain ⟨axes, after, hp⟩ := C119_returns hinj hS hg XRun.response_gives.1 (by simp) (by decide)
    (plotOf := XRun.times) (fun _ _ _ => ⟨rfl, rfl⟩) (adddata := false) (fun h => by cases h) (.bool true) (fun _ => [])
  obtain ⟨cols, hc1, hc2, hc3⟩ := hc 0 (by decide)
  obtain ⟨lims, hl1, hcal⟩ := hc3 0 (by decide)
  obtain ⟨-, -, -, -, hshow⟩ := C119_shown_partial hinj hS hg hp
  obtain ⟨time, med, pis, cis, dat, ha, -, -, hb, -⟩ := hshow 0 0 () cols lims rfl hc1 hl1
  have hc2' : cols.length = 1 := hc2
  rw [hc2'] at ha
  rw [hpn] at hb
  have hb' : List.Forall₂ (ShowsBand .ci false lims time) [99, 95, 90, 50] cis := hb
  clear hb
  cases hb' with
  | cons f1 hb => cases hb with
    | cons f2 hb => cases hb with
      | cons f3 hb =>
        have g2 := f2
        have g3 := f3
        obtain ⟨c95, lo95, hi95, -, -, -, -, rfl, -⟩ := g2
        obtain ⟨c90, lo90, hi90, -, -, -, -, rfl, -⟩ := g3
        obtain ⟨-, -, e2⟩ := C120_shown_partial hcal f2
        obtain ⟨-, -, e3⟩ := C120_shown_partial hcal f3
        refine ⟨out, R, S, o, axes, after, time, c95, lo95, hi95, c90, lo90, hi90, ho, hR, hS, hg, hp, ?_, ?_,
          fun i hi => ⟨?_, ?_⟩⟩
        · rw [ha]; simp
        · rw [ha]; simp
        · obtain ⟨l, u, q1, q2, q3, -⟩ := e2 i hi
          refine ⟨l, u, q1, q2, ?_⟩
          norm_num at q3 ⊢
          exact q3
        · obtain ⟨l, u, q1, q2, -, q3⟩ := e3 i hi
          refine ⟨l, u, q1, q2, ?_⟩
          norm_num at q3 ⊢
          exact q3

/-- C120 with sampled variance: the prediction intervals of the second point, for all rows after the first 1000. -/
example : ∃ K0 : ℕ, ∀ k : ℕ, K0 ≤ k →
    1 - 1 / 100 ≤ ((coinLaw (nS XRun.flags)).prod (Measure.infinitePi fun _ : ℕ => idealDraws)).real
      {z | ∃ K, ∀ fuel, K ≤ fuel → ∃ out R S o lo med hi,
        runSimulation XRun.user (coinRng (nS XRun.flags)) exactLapack fuel
          (newObj (m := 1) (XRun.freeAt fun _ => 1000000)
            (defineSimulationOptions { nsimu := k, method := .dr, updatesigma := true })
            (XRun.extra 1 1) (XRun.settingsAt fun _ => 2) XRun.data) z.1 false = .ok out ∧
        RealResults out.results none R ∧ setupIntervals R [()] XRun.response 1000 = .ok S ∧
        generateIntervals Real.sqrt Real.exp S none none (.str "on") []
          (fun ii k i j => (z.2 k).2 ii i j) = .ok o ∧
        o.prediction = some [[[lo, med, hi]]] ∧ ∃ l u, lo[1]? = some l ∧ hi[1]? = some u ∧
        95 / 100 - 1 / 100 ≤ ((jointLaw (m := 1) XRun.flags XRun.freeSpecs
          (fun θ _ => θ ⟨0, by decide⟩ * θ ⟨0, by decide⟩) (fun _ => 0) (fun _ => 5) (fun _ => 1) (fun _ => 1)).prod
            (gaussianReal 0 1)).real
          {z | l ≤ z.1.1 ⟨0, by decide⟩ * z.1.1 ⟨0, by decide⟩ + z.2 * Real.sqrt (z.1.2 0) ∧
            z.1.1 ⟨0, by decide⟩ * z.1.1 ⟨0, by decide⟩ + z.2 * Real.sqrt (z.1.2 0) ≤ u}} := by
  have D1 : IdealRng (coinRng (nS XRun.flags)) 1 (coinLaw (nS XRun.flags)) := by
    rw [XRun.nS_flags]; exact coinIdeal 1
  obtain ⟨K0, h⟩ := C120_prediction
    (opts := defineSimulationOptions { nsimu := 2, method := .dr, updatesigma := true }) XRun.freeJoint
    (coinIdeal _) D1 XRun.freeJoint_mass.1 XRun.freeJoint_mass.2 (p := (fun _ => 1000000, fun _ => 2))
    ⟨XRun.free_inLimits _, fun _ => by norm_num⟩ (η := 1 / 100) (ε := 1 / 100) (by norm_num)
    (by norm_num) (th0 := fun _ => 0) (fun k hk => by cases hk) XRun.values_measurable XRun.response_gives (.inl rfl)
    (sst := none) (by decide) (fun h => by cases h) (.str "on") idealDraws_ideal
  refine ⟨K0 + 2000, fun k hk => (h k 1000 none (by simp; omega) (by omega)).trans ?_⟩
  have := idealDraws_ideal.prob
  refine measureReal_mono fun z hz => ?_
  obtain ⟨K, hz⟩ := hz
  refine ⟨K, fun fuel hfuel => ?_⟩
  obtain ⟨out, R, S, o, ho, hR, hS, hg, hpi, -, -, hc⟩ := hz fuel hfuel
  obtain ⟨pred, hpred⟩ := Option.isSome_iff_exists.1 (hpi.2 (by decide))
  obtain ⟨hl, hc⟩ := hc pred hpred
  obtain ⟨cols, c1, c2, c3⟩ := hc 0 (by decide)
  obtain ⟨lims, c, d1, -, hcal⟩ := c3 0 (by decide)
  obtain rfl : pred = [cols] := by
    match pred, hl, c1 with
    | [_], _, rfl => rfl
  obtain rfl : cols = [lims] := by
    match cols, c2, d1 with
    | [_], _, rfl => rfl
  obtain ⟨lo, med, hi, rfl⟩ : ∃ lo med hi, lims = [lo, med, hi] := by
    match lims, hcal.curves with
    | [lo, med, hi], _ => exact ⟨lo, med, hi, rfl⟩
  have p1 := hcal.points lo (by simp)
  have p2 := hcal.points hi (by simp)
  obtain ⟨l, hl⟩ : ∃ l, lo[1]? = some l := ⟨_, List.getElem?_eq_getElem (by omega)⟩
  obtain ⟨u, hu⟩ : ∃ u, hi[1]? = some u := ⟨_, List.getElem?_eq_getElem (by omega)⟩
  refine ⟨out, R, S, o, lo, med, hi, ho, hR, hS, hg, hpred, l, u, hl, hu, ?_⟩
  have := (hcal.band 0 2 _ _ lo hi rfl rfl (by norm_num) rfl rfl 1 l u hl hu).1
  have hc0 : c = 0 := Subsingleton.elim _ _
  subst hc0
  refine le_trans (by norm_num) this

end Verif
