import Verif.Lemmas.Forget

/-! # Averages of integrable functions

`Harris.average` is about bounded functions.  Here the weak law of large numbers for all functions with a finite
mean, from every start the chain spreads from. -/

set_option linter.unusedSectionVars false

namespace Verif
open MeasureTheory Function Filter
open scoped ENNReal Topology

variable {X σ : Type} [MeasurableSpace X] [MeasurableSpace σ] {μ : Measure σ} [IsProbabilityMeasure μ]
  {T : X × σ → X × σ} {π : Measure X}

/-- average of `f` over the first `k` rows -/
noncomputable def rowAvg (T : X × σ → X × σ) (f : X → ℝ) (k : ℕ) (p : X × σ) : ℝ :=
  (∑ j ∈ Finset.range k, f (T^[j] p).1) / k

theorem measurable_rowAvg (hT : Fresh μ T) {f : X → ℝ} (hf : Measurable f) (k : ℕ) : Measurable (rowAvg T f k) :=
  (Finset.measurable_sum _ fun j _ => hf.comp (measurable_fst.comp (hT.iterate j).measurable)).div_const _

theorem measurableSet_dev (hT : Fresh μ T) {f : X → ℝ} (hf : Measurable f) (k : ℕ) (m η : ℝ) :
    MeasurableSet {p | η ≤ |rowAvg T f k p - m|} :=
  measurableSet_le measurable_const ((measurable_rowAvg hT hf k).sub_const m).abs

/-- probability of a deviation from the start `y` -/
noncomputable def devProb (μ : Measure σ) (T : X × σ → X × σ) (f : X → ℝ) (k : ℕ) (m η : ℝ) (y : X) : ℝ :=
  μ.real {s | η ≤ |rowAvg T f k (y, s) - m|}

theorem unitFun_devProb (hT : Fresh μ T) {f : X → ℝ} (hf : Measurable f) (k : ℕ) (m η : ℝ) :
    UnitFun (devProb μ T f k m η) := by
  refine ⟨?_, fun y => measureReal_nonneg, fun y => measureReal_le_one⟩
  exact (measurable_measure_prodMk_left (measurableSet_dev hT hf k m η)).ennreal_toReal

theorem integral_devProb [IsProbabilityMeasure π] (hT : Fresh μ T) {f : X → ℝ} (hf : Measurable f) (k : ℕ) (m η : ℝ) :
    ∫ y, devProb μ T f k m η y ∂π = (π.prod μ).real {p | η ≤ |rowAvg T f k p - m|} := by
  have hB := measurableSet_dev hT hf k m η
  unfold Measure.real devProb
  rw [Measure.prod_apply hB]
  have := integral_toReal (μ := π) (f := fun y => μ (Prod.mk y ⁻¹' {p | η ≤ |rowAvg T f k p - m|}))
    (measurable_measure_prodMk_left hB).aemeasurable (ae_of_all _ fun y => measure_lt_top _ _)
  exact this

theorem meanAt_devProb (hT : Fresh μ T) {f : X → ℝ} (hf : Measurable f) (k J : ℕ) (m η : ℝ) (x : X) :
    meanAt μ T J (devProb μ T f k m η) x = μ.real {s | η ≤ |rowAvg T f k (T^[J] (x, s)) - m|} := by
  have hB := measurableSet_dev hT hf k m η
  have h1 := (hT.iterate J).indep x ({p | η ≤ |rowAvg T f k p - m|}.indicator 1) (measurable_one.indicator hB)
  have hp : Measurable fun s => T^[J] (x, s) :=
    (hT.iterate J).measurable.comp (measurable_const.prodMk measurable_id)
  have e1 : ∫⁻ s, {p | η ≤ |rowAvg T f k p - m|}.indicator 1 (T^[J] (x, s)) ∂μ =
      μ {s | η ≤ |rowAvg T f k (T^[J] (x, s)) - m|} := by
    have hy : MeasurableSet {s | η ≤ |rowAvg T f k (T^[J] (x, s)) - m|} := hp hB
    rw [← lintegral_indicator_one hy]
    rfl
  have e2 : ∀ y, ∫⁻ s', {p | η ≤ |rowAvg T f k p - m|}.indicator 1 (y, s') ∂μ =
      μ {s | η ≤ |rowAvg T f k (y, s) - m|} := by
    intro y
    have hy : MeasurableSet {s | η ≤ |rowAvg T f k (y, s) - m|} := measurable_prodMk_left hB
    rw [← lintegral_indicator_one hy]
    rfl
  simp only [e2] at h1
  unfold meanAt Measure.real
  rw [← e1, h1]
  have := integral_toReal (μ := μ) (f := fun s => μ {s' | η ≤ |rowAvg T f k ((T^[J] (x, s)).1, s') - m|})
    ((measurable_measure_prodMk_left hB).comp (hT.measurable_row J x)).aemeasurable
    (ae_of_all _ fun y => measure_lt_top _ _)
  exact this

/-- cut a function off where it is large -/
noncomputable def cutAt (f : X → ℝ) (c : ℝ) (y : X) : ℝ := if |f y| ≤ c then f y else 0

theorem measurable_cutAt {f : X → ℝ} (hf : Measurable f) (c : ℝ) : Measurable (cutAt f c) :=
  Measurable.ite (measurableSet_le hf.abs measurable_const) hf measurable_const

theorem abs_cutAt_le (f : X → ℝ) {c : ℝ} (hc : 0 ≤ c) (y : X) : |cutAt f c y| ≤ c := by
  unfold cutAt
  split_ifs with h
  · exact h
  · simpa using hc

theorem abs_sub_cutAt_le (f : X → ℝ) (c : ℝ) (y : X) : |f y - cutAt f c y| ≤ |f y| := by
  unfold cutAt
  split_ifs with h
  · simp
  · simp

theorem exists_cut {f : X → ℝ} (hf : Measurable f) (hi : Integrable f π) {d : ℝ} (hd : 0 < d) :
    ∃ c : ℝ, 0 < c ∧ ∫ y, |f y - cutAt f c y| ∂π ≤ d := by
  have h := tendsto_integral_of_dominated_convergence (μ := π)
    (F := fun (n : ℕ) y => |f y - cutAt f n y|) (f := fun _ => 0) (fun y => |f y|)
    (fun n => (hf.sub (measurable_cutAt hf _)).abs.aestronglyMeasurable) hi.abs
    (fun n => ae_of_all _ fun y => by rw [Real.norm_eq_abs, abs_abs]; exact abs_sub_cutAt_le f _ y)
    (ae_of_all _ fun y => by
      refine tendsto_const_nhds.congr' ?_
      filter_upwards [eventually_ge_atTop ⌈|f y|⌉₊] with n hn
      have : |f y| ≤ n := (Nat.le_ceil _).trans (by exact_mod_cast hn)
      simp [cutAt, this])
  rw [integral_zero] at h
  obtain ⟨n, hn, h0⟩ := ((h.eventually (gt_mem_nhds hd)).and (eventually_gt_atTop 0)).exists
  exact ⟨n, by exact_mod_cast h0, hn.le⟩

/-- the mean over the rows of a nonnegative function, from the stationary law -/
theorem integral_rowAvg_abs (H : Harris μ T π) {f : X → ℝ} (hf : Measurable f) (hi : Integrable f π) (k : ℕ) :
    Integrable (rowAvg T f k) (π.prod μ) ∧ ∫ p, |rowAvg T f k p| ∂(π.prod μ) ≤ ∫ y, |f y| ∂π := by
  have := H.prob
  have hrow : ∀ j, Integrable (fun p => f (T^[j] p).1) (π.prod μ) := fun j =>
    (H.kept.iterate j).integrable_comp_of_integrable (g := fun p : X × σ => f p.1) (hi.comp_fst μ)
  have hval : ∀ j, ∫ p, |f (T^[j] p).1| ∂(π.prod μ) = ∫ y, |f y| ∂π := by
    intro j
    have hm : AEStronglyMeasurable (fun p : X × σ => |f p.1|) (Measure.map (T^[j]) (π.prod μ)) :=
      (hf.comp measurable_fst).abs.aestronglyMeasurable
    have h1 := integral_map (H.kept.iterate j).measurable.aemeasurable hm
    rw [(H.kept.iterate j).map_eq] at h1
    rw [← h1, integral_fun_fst (μ := π) (ν := μ) (f := fun y => |f y|)]
    simp
  have hsum : Integrable (fun p => ∑ j ∈ Finset.range k, f (T^[j] p).1) (π.prod μ) :=
    integrable_finset_sum _ fun j _ => hrow j
  have hint : Integrable (rowAvg T f k) (π.prod μ) := hsum.div_const _
  refine ⟨hint, ?_⟩
  rcases Nat.eq_zero_or_pos k with rfl | hk
  · simp only [rowAvg, Finset.range_zero, Finset.sum_empty, Nat.cast_zero, div_zero, abs_zero, integral_zero]
    exact integral_nonneg fun y => abs_nonneg _
  have hk0 : (0 : ℝ) < k := by exact_mod_cast hk
  have hsum' : Integrable (fun p => ∑ j ∈ Finset.range k, |f (T^[j] p).1|) (π.prod μ) :=
    integrable_finset_sum _ fun j _ => (hrow j).abs
  calc ∫ p, |rowAvg T f k p| ∂(π.prod μ)
      ≤ ∫ p, (∑ j ∈ Finset.range k, |f (T^[j] p).1|) / k ∂(π.prod μ) := by
        refine integral_mono hint.abs (hsum'.div_const _) fun p => ?_
        simp only [rowAvg]
        rw [abs_div, abs_of_pos hk0]
        gcongr
        exact Finset.abs_sum_le_sum_abs _ _
    _ = ∫ y, |f y| ∂π := by
        rw [integral_div, integral_finset_sum _ fun j _ => (hrow j).abs, Finset.sum_congr rfl fun j _ => hval j]
        simp only [Finset.sum_const, Finset.card_range, nsmul_eq_mul]
        field_simp

theorem rowAvg_sub (f g : X → ℝ) (k : ℕ) (p : X × σ) :
    rowAvg T (fun y => f y - g y) k p = rowAvg T f k p - rowAvg T g k p := by
  unfold rowAvg
  rw [Finset.sum_sub_distrib, sub_div]

/-- bounded functions, from the stationary law -/
theorem Harris.average_stationary_bounded (H : Harris μ T π) {S : Set X} (hS : MeasurableSet S)
    (hsp : ∀ x ∈ S, Spreads μ T π x)
    (keep : ∀ x ∈ S, ∀ᵐ s ∂μ, (T (x, s)).1 ∈ S) (hπS : π Sᶜ = 0) {c η ε : ℝ} (hc : 0 < c)
    (hη : 0 < η) (hε : 0 < ε) {f : X → ℝ} (hf : Measurable f) (hfc : ∀ x, |f x| ≤ c) :
    ∃ K : ℕ, ∀ k, K ≤ k → (π.prod μ).real {p | η ≤ |rowAvg T f k p - ∫ y, f y ∂π|} ≤ ε := by
  have := H.prob
  have hlim : ∀ᵐ y ∂π, Tendsto (fun k => devProb μ T f k (∫ y, f y ∂π) η y) atTop (𝓝 0) := by
    filter_upwards [show ∀ᵐ y ∂π, y ∈ S from hπS] with y hy
    rw [Metric.tendsto_atTop]
    intro e he
    obtain ⟨K, hK⟩ := H.average (hsp y hy) hS keep hπS hy hc hη (half_pos he)
    refine ⟨K, fun k hk => ?_⟩
    have h := hK k hk f hf fun x _ => hfc x
    rw [Real.dist_eq, sub_zero, abs_of_nonneg ((unitFun_devProb H.fresh hf k _ η).nonneg y)]
    exact lt_of_le_of_lt h (half_lt_self he)
  have h := tendsto_integral_of_dominated_convergence (μ := π)
    (F := fun k => devProb μ T f k (∫ y, f y ∂π) η) (f := fun _ => 0) (fun _ => 1)
    (fun k => (unitFun_devProb H.fresh hf k _ η).meas.aestronglyMeasurable) (integrable_const _)
    (fun k => ae_of_all _ fun y => by
      rw [Real.norm_eq_abs, abs_of_nonneg ((unitFun_devProb H.fresh hf k _ η).nonneg y)]
      exact (unitFun_devProb H.fresh hf k _ η).le_one y) hlim
  rw [integral_zero] at h
  obtain ⟨K, hK⟩ := eventually_atTop.1 (h.eventually (gt_mem_nhds hε))
  refine ⟨K, fun k hk => ?_⟩
  rw [← integral_devProb H.fresh hf]
  exact (hK k hk).le

/-- functions with a finite mean, from the stationary law -/
theorem Harris.average_stationary (H : Harris μ T π) {S : Set X} (hS : MeasurableSet S)
    (hsp : ∀ x ∈ S, Spreads μ T π x)
    (keep : ∀ x ∈ S, ∀ᵐ s ∂μ, (T (x, s)).1 ∈ S) (hπS : π Sᶜ = 0) {η ε : ℝ}
    (hη : 0 < η) (hε : 0 < ε) {f : X → ℝ} (hf : Measurable f) (hi : Integrable f π) :
    ∃ K : ℕ, ∀ k, K ≤ k → (π.prod μ).real {p | η ≤ |rowAvg T f k p - ∫ y, f y ∂π|} ≤ ε := by
  have := H.prob
  have hd : 0 < min (η / 3) (ε * η / 6) := by positivity
  obtain ⟨c, hc, hcut⟩ := exists_cut hf hi hd
  set d := ∫ y, |f y - cutAt f c y| ∂π with hdd
  have hcm := measurable_cutAt hf c
  have hci : Integrable (cutAt f c) π := Integrable.of_bound hcm.aestronglyMeasurable c
    (ae_of_all _ fun y => abs_cutAt_le f hc.le y)
  have hsub : Integrable (fun y => f y - cutAt f c y) π := hi.sub hci
  have hm : |∫ y, cutAt f c y ∂π - ∫ y, f y ∂π| ≤ d := by
    rw [abs_sub_comm, ← integral_sub hi hci]
    exact abs_integral_le_integral_abs
  obtain ⟨K, hK⟩ := H.average_stationary_bounded hS hsp keep hπS hc (show 0 < η / 3 by positivity)
    (half_pos hε) hcm (abs_cutAt_le f hc.le)
  refine ⟨K, fun k hk => ?_⟩
  obtain ⟨g1, g2⟩ := integral_rowAvg_abs H (hf.sub hcm) hsub k
  have hmk := mul_meas_ge_le_integral_of_nonneg (ae_of_all _ fun p => abs_nonneg _) g1.abs (η / 3)
  have hfirst : (π.prod μ).real {p | η / 3 ≤ |rowAvg T (fun y => f y - cutAt f c y) k p|} ≤ ε / 2 := by
    have h1 : η / 3 * (π.prod μ).real {p | η / 3 ≤ |rowAvg T (fun y => f y - cutAt f c y) k p|} ≤ d := hmk.trans g2
    have h2 : d ≤ ε * η / 6 := hcut.trans (min_le_right _ _)
    refine le_of_mul_le_mul_left ((h1.trans h2).trans (le_of_eq ?_)) (show 0 < η / 3 by positivity)
    ring
  have hsubset : {p | η ≤ |rowAvg T f k p - ∫ y, f y ∂π|} ⊆
      {p | η / 3 ≤ |rowAvg T (fun y => f y - cutAt f c y) k p|} ∪
      {p | η / 3 ≤ |rowAvg T (cutAt f c) k p - ∫ y, cutAt f c y ∂π|} := by
    intro p hp
    by_contra hn
    rw [Set.mem_union, not_or] at hn
    have a1 : |rowAvg T (fun y => f y - cutAt f c y) k p| < η / 3 := not_le.1 hn.1
    have a2 : |rowAvg T (cutAt f c) k p - ∫ y, cutAt f c y ∂π| < η / 3 := not_le.1 hn.2
    have a3 : |∫ y, cutAt f c y ∂π - ∫ y, f y ∂π| ≤ η / 3 := hm.trans (hcut.trans (min_le_left _ _))
    have a4 : η ≤ |rowAvg T f k p - ∫ y, f y ∂π| := hp
    rw [rowAvg_sub] at a1
    have : rowAvg T f k p - ∫ y, f y ∂π = (rowAvg T f k p - rowAvg T (cutAt f c) k p) +
        (rowAvg T (cutAt f c) k p - ∫ y, cutAt f c y ∂π) + (∫ y, cutAt f c y ∂π - ∫ y, f y ∂π) := by ring
    rw [this] at a4
    have := abs_add_three (rowAvg T f k p - rowAvg T (cutAt f c) k p)
      (rowAvg T (cutAt f c) k p - ∫ y, cutAt f c y ∂π) (∫ y, cutAt f c y ∂π - ∫ y, f y ∂π)
    linarith
  calc (π.prod μ).real {p | η ≤ |rowAvg T f k p - ∫ y, f y ∂π|} ≤ _ := measureReal_mono hsubset
    _ ≤ _ := measureReal_union_le _ _
    _ ≤ ε / 2 + ε / 2 := add_le_add hfirst (hK k hk)
    _ = ε := by ring

theorem exists_rarely_ge {A : σ → ℝ} (hA : Measurable A) {ε : ℝ} (hε : 0 < ε) :
    ∃ n : ℕ, μ.real {s | (n : ℝ) ≤ A s} ≤ ε := by
  have h := tendsto_integral_of_dominated_convergence (μ := μ)
    (F := fun (n : ℕ) => {s | (n : ℝ) ≤ A s}.indicator (1 : σ → ℝ)) (f := fun _ => 0) (fun _ => 1)
    (fun n => (measurable_one.indicator (measurableSet_le measurable_const hA)).aestronglyMeasurable)
    (integrable_const _)
    (fun n => ae_of_all _ fun s => by
      by_cases hs : s ∈ {s | (n : ℝ) ≤ A s}
      · rw [Set.indicator_of_mem hs]; simp
      · rw [Set.indicator_of_notMem hs]; simp)
    (ae_of_all _ fun s => by
      refine tendsto_const_nhds.congr' ?_
      filter_upwards [eventually_gt_atTop ⌈A s⌉₊] with n hn
      have : A s < n := (Nat.le_ceil _).trans_lt (by exact_mod_cast hn)
      rw [Set.indicator_of_notMem (by simpa using this)])
  rw [integral_zero] at h
  obtain ⟨n, hn⟩ := (h.eventually (gt_mem_nhds hε)).exists
  rw [integral_indicator_one (measurableSet_le measurable_const hA)] at hn
  exact ⟨n, hn.le⟩

/-- **Averages** of functions with a finite mean, from every start. -/
theorem Harris.average_integrable (H : Harris μ T π) {S : Set X} (hS : MeasurableSet S)
    (hsp : ∀ x ∈ S, Spreads μ T π x)
    (keep : ∀ x ∈ S, ∀ᵐ s ∂μ, (T (x, s)).1 ∈ S) (hπS : π Sᶜ = 0) {x : X} (hx : x ∈ S) {η ε : ℝ}
    (hη : 0 < η) (hε : 0 < ε) {f : X → ℝ} (hf : Measurable f) (hi : Integrable f π) :
    ∃ K : ℕ, ∀ k, K ≤ k →
      μ.real {s | η ≤ |(∑ j ∈ Finset.range k, f (T^[j] (x, s)).1) / k - ∫ y, f y ∂π|} ≤ ε := by
  have := H.prob
  set m := ∫ y, f y ∂π with hm
  obtain ⟨J, hJ⟩ := H.near (hsp x hx) (show 0 < ε / 4 by positivity)
  obtain ⟨K, hK⟩ := H.average_stationary hS hsp keep hπS (show 0 < η / 2 by positivity)
    (show 0 < ε / 4 by positivity) hf hi
  let A : σ → ℝ := fun s => |∑ j ∈ Finset.range J, f (T^[j] (x, s)).1| + |m| * J
  have hA : Measurable A := (Finset.measurable_sum _ fun j _ =>
    hf.comp (H.fresh.measurable_row j x)).abs.add_const _
  obtain ⟨n, hn⟩ := exists_rarely_ge (μ := μ) hA (half_pos hε)
  obtain ⟨K2, hK2⟩ := exists_nat_ge (2 * n / η)
  refine ⟨J + K + K2 + 1, fun k hk => ?_⟩
  obtain ⟨l, rfl⟩ : ∃ l, k = J + l := ⟨k - J, by omega⟩
  have hl : K ≤ l := by omega
  have hl0 : (0 : ℝ) < l := by exact_mod_cast (show 0 < l by omega)
  have hJ0 : (0 : ℝ) ≤ J := Nat.cast_nonneg J
  have hk0 : (0 : ℝ) < ((J + l : ℕ) : ℝ) := by push_cast; linarith
  have hsubset : {s | η ≤ |(∑ j ∈ Finset.range (J + l), f (T^[j] (x, s)).1) / ((J + l : ℕ) : ℝ) - m|} ⊆
      {s | (n : ℝ) ≤ A s} ∪ {s | η / 2 ≤ |rowAvg T f l (T^[J] (x, s)) - m|} := by
    intro s hs
    by_contra hc
    rw [Set.mem_union, not_or] at hc
    have a1 : A s < n := not_le.1 hc.1
    have a2 : |rowAvg T f l (T^[J] (x, s)) - m| < η / 2 := not_le.1 hc.2
    have a3 : η ≤ |(∑ j ∈ Finset.range (J + l), f (T^[j] (x, s)).1) / ((J + l : ℕ) : ℝ) - m| := hs
    have hn2 : (n : ℝ) ≤ η / 2 * ((J + l : ℕ) : ℝ) := by
      have h1 : (K2 : ℝ) ≤ ((J + l : ℕ) : ℝ) := by exact_mod_cast (show K2 ≤ J + l by omega)
      have h2 := hK2.trans h1
      rw [div_le_iff₀ hη] at h2
      linarith
    have e1 : (∑ j ∈ Finset.range (J + l), f (T^[j] (x, s)).1) =
        (∑ j ∈ Finset.range J, f (T^[j] (x, s)).1) + rowAvg T f l (T^[J] (x, s)) * l := by
      rw [Finset.sum_range_add]
      congr 1
      unfold rowAvg
      rw [div_mul_cancel₀ _ hl0.ne']
      refine Finset.sum_congr rfl fun i _ => ?_
      rw [← iterate_add_apply, Nat.add_comm]
    set B := rowAvg T f l (T^[J] (x, s)) with hB
    set A0 := ∑ j ∈ Finset.range J, f (T^[j] (x, s)).1 with hA0
    have a1' : |A0| + |m| * J < n := a1
    rw [e1, le_abs'] at a3
    have hb := abs_lt.1 a2
    have hA1 := neg_abs_le A0
    have hA2 := le_abs_self A0
    have hm1 := mul_le_mul_of_nonneg_right (neg_abs_le m) hJ0
    have hm2 := mul_le_mul_of_nonneg_right (le_abs_self m) hJ0
    have e2 : (A0 + B * l) / ((J + l : ℕ) : ℝ) - m = (A0 + (B - m) * l - m * J) / ((J + l : ℕ) : ℝ) := by
      field_simp
      push_cast
      ring
    have hkl : (l : ℝ) ≤ ((J + l : ℕ) : ℝ) := by push_cast; linarith
    rw [e2] at a3
    rcases a3 with a3 | a3
    · rw [div_le_iff₀ hk0] at a3
      nlinarith
    · rw [le_div_iff₀ hk0] at a3
      nlinarith
  have h2 : μ.real {s | η / 2 ≤ |rowAvg T f l (T^[J] (x, s)) - m|} ≤ ε / 2 := by
    rw [← meanAt_devProb H.fresh hf]
    have g1 := (abs_le.1 (hJ J le_rfl _ (unitFun_devProb H.fresh hf l m (η / 2)))).2
    have g2 := hK l hl
    rw [← integral_devProb H.fresh hf] at g2
    linarith
  calc _ ≤ _ := measureReal_mono hsubset
    _ ≤ _ := measureReal_union_le _ _
    _ ≤ ε / 2 + ε / 2 := add_le_add hn h2
    _ = ε := by ring

end Verif
