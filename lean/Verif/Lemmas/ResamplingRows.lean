import Verif.Lemmas.Resampling
import Verif.Lemmas.CoverageRows

/-! # Quantiles of values computed from rows and independent draws

As in `Lemmas/Resampling.lean`, for any rows: it suffices that the averages over the rows of finitely many
functions with values in `[0, 1]` are right outside one measurable set. -/

set_option linter.unusedSectionVars false

namespace Verif
open MeasureTheory Function ProbabilityTheory

section rows
variable {X σ : Type} [MeasurableSpace X] [MeasurableSpace σ] {μ : Measure σ} [IsProbabilityMeasure μ]
  {π : Measure X} [IsProbabilityMeasure π]

/-- the mean of a function of a row and a draw, given the row -/
noncomputable def drawMean {κ : Type} (γ : Measure ℝ) (χ : κ → X × ℝ → ℝ) (c : κ) (y : X) : ℝ := ∫ z, χ c (y, z) ∂γ

theorem drawMean_spec {κ : Type} {γ : Measure ℝ} [IsProbabilityMeasure γ]
    {χ : κ → X × ℝ → ℝ} (hχ : ∀ c, Measurable (χ c)) (hχ01 : ∀ c z, 0 ≤ χ c z ∧ χ c z ≤ 1) :
    (∀ c, Measurable (drawMean γ χ c)) ∧ (∀ c y, 0 ≤ drawMean γ χ c y ∧ drawMean γ χ c y ≤ 1) ∧
      ∀ c, ∫ y, drawMean γ χ c y ∂π = ∫ z, χ c z ∂(π.prod γ) := by
  have hχi : ∀ {Y : Type} [MeasurableSpace Y] (m : Measure Y) [IsProbabilityMeasure m] (f : Y → ℝ), Measurable f →
      (∀ y, 0 ≤ f y ∧ f y ≤ 1) → Integrable f m := fun m _ f hf h =>
    Integrable.of_mem_Icc 0 1 hf.aemeasurable (ae_of_all _ h)
  refine ⟨fun c => ((hχ c).stronglyMeasurable.integral_prod_right' (ν := γ)).measurable, fun c y => ?_, fun c =>
    (integral_prod _ (hχi (π.prod γ) _ (hχ c) (hχ01 c))).symm⟩
  unfold drawMean
  refine ⟨integral_nonneg fun z => (hχ01 c _).1, ?_⟩
  have := integral_mono (hχi γ _ ((hχ c).comp measurable_prodMk_left) fun z => hχ01 c _) (integrable_const (1 : ℝ))
    fun z => (hχ01 c (y, z)).2
  simpa using this

/-- Averages of functions `χ (row, draw)` with values in `[0,1]`, over `M` rows (all or drawn) with independent draws. -/
theorem rows_resampledFn {Xr : ℕ → σ → X} (hXr : ∀ j, Measurable (Xr j)) {η e : ℝ} (hη : 0 < η)
    {κ : Type} [Fintype κ] {γ : Measure ℝ} [IsProbabilityMeasure γ]
    {χ : κ → X × ℝ → ℝ} (hχ : ∀ c, Measurable (χ c)) (hχ01 : ∀ c z, 0 ≤ χ c z ∧ χ c z ≤ 1)
    {W : Type} [MeasurableSpace W] {ν : Measure W} [IsProbabilityMeasure ν] {u : W → ℝ} (hu : Measurable u)
    {ζ : κ → W → ℝ} (hζ : ∀ c, Measurable (ζ c))
    (hlaw : ∀ c, ν.map (fun w => (u w, ζ c w)) = (volume.restrict (Set.Icc (0 : ℝ) 1)).prod γ) {n M : ℕ}
    (hM0 : 0 < M) (hMn : M ≤ n) {all : Bool} (hall : all = true → M = n) {B : Set σ} (hB : MeasurableSet B)
    (hBe : μ.real B ≤ e)
    (hgood : ∀ s, s ∉ B → ∀ c, |(∑ j ∈ Finset.range n, drawMean γ χ c (Xr j s)) / n - ∫ y, drawMean γ χ c y ∂π| < η / 2) :
      ∃ B : Set (σ × (ℕ → W)), MeasurableSet B ∧
      (μ.prod (Measure.infinitePi fun _ : ℕ => ν)).real B ≤ e + Fintype.card κ / ((η / 2) ^ 2 * M) ∧
      ∀ s w, (s, w) ∉ B → ∀ c,
        |(∑ k ∈ Finset.range M, χ c (Xr (pickRow all n k (u (w k))) s, ζ c (w k))) / M -
          ∫ z, χ c z ∂(π.prod γ)| < η := by
  have hχi : ∀ {Y : Type} [MeasurableSpace Y] (m : Measure Y) [IsProbabilityMeasure m] (f : Y → ℝ), Measurable f →
      (∀ y, 0 ≤ f y ∧ f y ≤ 1) → Integrable f m := fun m _ f hf h =>
    Integrable.of_mem_Icc 0 1 hf.aemeasurable (ae_of_all _ h)
  obtain ⟨hh, hh01, hhint⟩ := drawMean_spec (π := π) (γ := γ) hχ hχ01
  have hdef : ∀ c y, drawMean γ χ c y = ∫ z, χ c (y, z) ∂γ := fun _ _ => rfl
  generalize drawMean γ χ = h at *
  have hMr : (0 : ℝ) < M := by exact_mod_cast hM0
  have hn0 : 0 < n := by omega
  set P := Measure.infinitePi fun _ : ℕ => ν
  obtain ⟨f, hfd⟩ : ∃ f : κ → σ → ℕ → W → ℝ, ∀ c s k w, f c s k w = χ c (Xr (pickRow all n k (u w)) s, ζ c w) :=
    ⟨_, fun _ _ _ _ => rfl⟩
  simp only [← hfd]
  have hf01 : ∀ c s k w, 0 ≤ f c s k w ∧ f c s k w ≤ 1 := fun c s k w => by rw [hfd]; exact hχ01 c _
  have hf2 : ∀ c k, Measurable fun z : σ × W => f c z.1 k z.2 := by
    intro c k
    simp only [hfd]
    have h1 : Measurable fun z : ℕ × σ => Xr z.1 z.2 := measurable_from_prod_countable_right hXr
    have h2 : Measurable fun z : σ × W => (pickRow all n k (u z.2), z.1) :=
      ((measurable_pickRow all n k).comp (hu.comp measurable_snd)).prodMk measurable_fst
    exact (hχ c).comp ((h1.comp h2).prodMk ((hζ c).comp measurable_snd))
  have hmean : ∀ c s, (∑ k ∈ Finset.range M, ∫ w, f c s k w ∂ν) / M = (∑ j ∈ Finset.range n, h c (Xr j s)) / n := by
    intro c s
    have hk : ∀ k, ∫ w, f c s k w ∂ν = ∫ r in Set.Icc (0 : ℝ) 1, h c (Xr (pickRow all n k r) s) := by
      intro k
      have hprobU : IsProbabilityMeasure (volume.restrict (Set.Icc (0 : ℝ) 1)) := ⟨by simp⟩
      have hF : Measurable fun z : ℝ × ℝ => χ c (Xr (pickRow all n k z.1) s, z.2) := by
        have h1 : Measurable fun j : ℕ => Xr j s := Measurable.of_discrete
        exact (hχ c).comp ((h1.comp ((measurable_pickRow all n k).comp measurable_fst)).prodMk measurable_snd)
      have h1 : ∫ w, f c s k w ∂ν = ∫ z, χ c (Xr (pickRow all n k z.1) s, z.2)
          ∂((volume.restrict (Set.Icc (0 : ℝ) 1)).prod γ) := by
        rw [← hlaw c, integral_map (hu.prodMk (hζ c)).aemeasurable hF.aestronglyMeasurable]
        simp only [hfd]
      rw [h1, integral_prod _ (hχi _ _ hF fun z => hχ01 c _)]
      simp only [hdef]
    simp only [hk]
    cases all with
    | true =>
      have hMn' := hall rfl
      subst hMn'
      congr 1
      refine Finset.sum_congr rfl fun k _ => ?_
      simp [pickRow]
    | false =>
      have hu' : ∀ k, ∫ r in Set.Icc (0 : ℝ) 1, h c (Xr (pickRow false n k r) s) =
          (∑ j ∈ Finset.range n, h c (Xr j s)) / n := fun k => by
        simp only [pickRow, Bool.false_eq_true, if_false]
        exact uniform_row hn0 fun j => h c (Xr j s)
      simp only [hu', Finset.sum_const, Finset.card_range, nsmul_eq_mul]
      field_simp
  obtain ⟨Bc, hBd⟩ : ∃ Bc : κ → Set (σ × (ℕ → W)), ∀ c, Bc c = {z | η / 2 ≤
    |(∑ k ∈ Finset.range M, f c z.1 k (z.2 k)) / M - (∑ j ∈ Finset.range n, h c (Xr j z.1)) / n|} := ⟨_, fun _ => rfl⟩
  have hBc : ∀ c, MeasurableSet (Bc c) := by
    intro c
    have h0 : ∀ k, Measurable fun z : σ × (ℕ → W) => (z.1, z.2 k) := fun k =>
      measurable_fst.prodMk ((measurable_pi_apply k).comp measurable_snd)
    have h1 : Measurable fun z : σ × (ℕ → W) => ∑ k ∈ Finset.range M, f c z.1 k (z.2 k) :=
      Finset.measurable_sum _ fun k _ => (hf2 c k).comp (h0 k)
    have h2 : Measurable fun z : σ × (ℕ → W) => ∑ j ∈ Finset.range n, h c (Xr j z.1) :=
      Finset.measurable_sum _ fun j _ => (hh c).comp ((hXr j).comp measurable_fst)
    rw [hBd]
    exact measurableSet_le measurable_const ((h1.div_const _).sub (h2.div_const _)).abs
  have hBcε : ∀ c, (μ.prod P).real (Bc c) ≤ 1 / ((η / 2) ^ 2 * M) := by
    intro c
    have hle : (μ.prod P) (Bc c) ≤ ENNReal.ofReal (1 / ((η / 2) ^ 2 * M)) := by
      rw [Measure.prod_apply (hBc c)]
      calc ∫⁻ s, P (Prod.mk s ⁻¹' Bc c) ∂μ ≤ ∫⁻ _, ENNReal.ofReal (1 / ((η / 2) ^ 2 * M)) ∂μ := by
            refine lintegral_mono fun s => ?_
            have h1 := average_independent ν (f := f c s)
              (fun k => (hf2 c k).comp measurable_prodMk_left) (hf01 c s) hM0 (t := η / 2) (by positivity)
            rw [hmean c s] at h1
            rw [← ofReal_measureReal, hBd]
            exact ENNReal.ofReal_le_ofReal h1
        _ = _ := by simp
    exact ENNReal.toReal_le_of_le_ofReal (by positivity) hle
  refine ⟨B ×ˢ Set.univ ∪ ⋃ c, Bc c, (hB.prod .univ).union (.iUnion hBc), ?_, fun s w hsw c => ?_⟩
  · have h1 : (μ.prod P).real (B ×ˢ Set.univ) ≤ e := by
      rw [measureReal_prod_prod]
      simpa using hBe
    have h2 : (μ.prod P).real (⋃ c, Bc c) ≤ Fintype.card κ / ((η / 2) ^ 2 * M) := by
      calc _ ≤ ∑ c, (μ.prod P).real (Bc c) := measureReal_iUnion_fintype_le _
        _ ≤ ∑ _c : κ, 1 / ((η / 2) ^ 2 * M) := Finset.sum_le_sum fun c _ => hBcε c
        _ = Fintype.card κ / ((η / 2) ^ 2 * M) := by
          rw [Finset.sum_const, nsmul_eq_mul, Finset.card_univ, mul_one_div]
    exact (measureReal_union_le _ _).trans (by linarith)
  · rw [Set.mem_union, not_or, Set.mem_iUnion, not_exists] at hsw
    have hsB : s ∉ B := fun h => hsw.1 ⟨h, trivial⟩
    have h1 := hsw.2 c
    rw [hBd, Set.mem_ofPred_eq, not_le] at h1
    have h2 := hgood s hsB c
    rw [hhint c] at h2
    have h3 := abs_sub_le ((∑ k ∈ Finset.range M, f c s k (w k)) / (M : ℝ))
      ((∑ j ∈ Finset.range n, h c (Xr j s)) / n) (∫ z, χ c z ∂(π.prod γ))
    linarith

/-- quantiles of values `V (row, draw)`: from the averages of finitely many functions -/
theorem exists_resampled_events {η : ℝ} (hη : 0 < η) {ι : Type} [Fintype ι] (γ : Measure ℝ) [IsProbabilityMeasure γ]
    {V : ι → X × ℝ → ℝ} (hV : ∀ a, Measurable (V a)) :
    ∃ (κ : Type) (_ : Fintype κ) (lab : κ → ι) (χ : κ → X × ℝ → ℝ) (K : ℕ), 2 ≤ K ∧ (∀ c, Measurable (χ c)) ∧
      (∀ c z, 0 ≤ χ c z ∧ χ c z ≤ 1) ∧ ∀ M, K ≤ M → ∀ r : ι → ℕ → X × ℝ,
      (∀ c, |(∑ k ∈ Finset.range M, χ c (r (lab c) k)) / M - ∫ z, χ c z ∂(π.prod γ)| < η / 4) →
      ∀ a p, 0 ≤ p → p ≤ 1 → ∀ q,
        q = interpAt ((List.ofFn fun k : Fin M => V a (r a k)).insertionSort (· ≤ ·)) (((M : ℝ) - 1) * p) →
        p - η ≤ (π.prod γ).real {z | V a z ≤ q} ∧ (π.prod γ).real {z | V a z < q} ≤ p + η := by
  classical
  have hprob1 : ∀ a, IsProbabilityMeasure ((π.prod γ).map (V a)) := fun a =>
    Measure.isProbabilityMeasure_map (hV a).aemeasurable
  choose A Ka hKa2 hA using fun a => quantile_events ((π.prod γ).map (V a)) hη
  let κ := Σ a : ι, {y // y ∈ (A a).1} ⊕ {y // y ∈ (A a).2}
  let Ev : κ → Set ℝ := fun c => Sum.elim (fun y => Set.Iio y.1) (fun y => Set.Ioi y.1) c.2
  have hEv : ∀ c, MeasurableSet (Ev c) := by
    rintro ⟨a, y | y⟩
    · exact measurableSet_Iio
    · exact measurableSet_Ioi
  refine ⟨κ, inferInstance, fun c => c.1, fun c z => (Ev c).indicator 1 (V c.1 z), (∑ a, Ka a) + 2, by omega,
    fun c => (measurable_one.indicator (hEv c)).comp (hV c.1), fun c z => indicator_unit (Ev c) _,
    fun M hKM r hclose a p p0 p1 q hq => ?_⟩
  have hint : ∀ c : κ, ∫ z, (Ev c).indicator (1 : ℝ → ℝ) (V c.1 z) ∂(π.prod γ) =
      ((π.prod γ).map (V c.1)).real (Ev c) := by
    intro c
    rw [map_measureReal_apply (hV c.1) (hEv c), ← integral_indicator_one ((hV c.1) (hEv c))]
    rfl
  simp only [hint] at hclose
  have hKaM : Ka a ≤ M := by
    have := Finset.single_le_sum (f := Ka) (fun _ _ => Nat.zero_le _) (Finset.mem_univ a)
    omega
  have hfin := hA a M hKaM (fun k => V a (r a k))
    (fun y hy => hclose ⟨a, .inl ⟨y, hy⟩⟩) (fun y hy => hclose ⟨a, .inr ⟨y, hy⟩⟩) p p0 p1
  rw [map_measureReal_apply (hV a) measurableSet_Iic, map_measureReal_apply (hV a) measurableSet_Iio] at hfin
  subst hq
  exact hfin

/-- quantiles of values computed from rows (all or drawn) with right averages and independent draws -/
theorem rows_resampled {η : ℝ} (hη : 0 < η) {ι κ : Type} [Fintype κ] {γ : Measure ℝ} [IsProbabilityMeasure γ]
    {V : ι → X × ℝ → ℝ} {lab : κ → ι} {χ : κ → X × ℝ → ℝ} {K : ℕ} (hχ : ∀ c, Measurable (χ c))
    (hχ01 : ∀ c z, 0 ≤ χ c z ∧ χ c z ≤ 1)
    (hquant : ∀ M, K ≤ M → ∀ r : ι → ℕ → X × ℝ,
      (∀ c, |(∑ k ∈ Finset.range M, χ c (r (lab c) k)) / M - ∫ z, χ c z ∂(π.prod γ)| < η / 4) →
      ∀ a p, 0 ≤ p → p ≤ 1 → ∀ q,
        q = interpAt ((List.ofFn fun k : Fin M => V a (r a k)).insertionSort (· ≤ ·)) (((M : ℝ) - 1) * p) →
        p - η ≤ (π.prod γ).real {z | V a z ≤ q} ∧ (π.prod γ).real {z | V a z < q} ≤ p + η)
    {W : Type} [MeasurableSpace W] {ν : Measure W} [IsProbabilityMeasure ν] {u : W → ℝ} (hu : Measurable u)
    {ζ : ι → W → ℝ} (hζ : ∀ a, Measurable (ζ a))
    (hlaw : ∀ a, ν.map (fun w => (u w, ζ a w)) = (volume.restrict (Set.Icc (0 : ℝ) 1)).prod γ)
    {Xr : ℕ → σ → X} (hXr : ∀ j, Measurable (Xr j)) {n M : ℕ} (hM0 : 0 < M) (hKM : K ≤ M) (hMn : M ≤ n) {all : Bool}
    (hall : all = true → M = n) {B : Set σ} (hB : MeasurableSet B) {e e' : ℝ} (he' : 0 < e')
    (hM : Fintype.card κ / ((η / 4 / 2) ^ 2 * e') ≤ M) (hBe : μ.real B ≤ e)
    (hgood : ∀ s, s ∉ B → ∀ c,
      |(∑ j ∈ Finset.range n, drawMean γ χ c (Xr j s)) / n - ∫ y, drawMean γ χ c y ∂π| < η / 4 / 2) :
    ∃ B : Set (σ × (ℕ → W)), MeasurableSet B ∧ (μ.prod (Measure.infinitePi fun _ : ℕ => ν)).real B ≤ e + e' ∧
      ∀ s w, (s, w) ∉ B → ∀ a p, 0 ≤ p → p ≤ 1 → ∀ q,
        q = interpAt ((List.ofFn fun k : Fin M =>
          V a (Xr (pickRow all n k (u (w k))) s, ζ a (w k))).insertionSort (· ≤ ·)) (((M : ℝ) - 1) * p) →
        p - η ≤ (π.prod γ).real {z | V a z ≤ q} ∧ (π.prod γ).real {z | V a z < q} ≤ p + η := by
  have hMr : (0 : ℝ) < M := by exact_mod_cast hM0
  obtain ⟨B', h1, h2, h3⟩ := rows_resampledFn (μ := μ) hXr (show 0 < η / 4 by positivity) hχ hχ01 hu
    (ζ := fun c => ζ (lab c)) (fun c => hζ (lab c)) (fun c => hlaw (lab c)) hM0 hMn hall hB hBe hgood
  refine ⟨B', h1, h2.trans ?_, fun s w hsw a p p0 p1 q hq => ?_⟩
  · have : (Fintype.card κ : ℝ) / ((η / 4 / 2) ^ 2 * M) ≤ e' := by
      rw [div_le_iff₀ (by positivity)] at hM ⊢
      linarith
    linarith
  · exact hquant M hKM (fun a k => (Xr (pickRow all n k (u (w k))) s, ζ a (w k))) (h3 s w hsw) a p p0 p1 q hq

end rows

end Verif
