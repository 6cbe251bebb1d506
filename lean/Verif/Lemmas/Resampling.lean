import Verif.Lemmas.Coverage
import Mathlib.Probability.Independence.InfinitePi
import Mathlib.Probability.Moments.Variance
import Mathlib.MeasureTheory.Measure.Prod
import Mathlib.MeasureTheory.Function.Floor

/-! # Quantiles of values computed from drawn rows

`generate_prediction_intervals` evaluates the model at drawn rows of the chain and adds drawn errors.  Quantiles of
such values cut off the right probabilities of the posterior and of the posterior predictive distribution. -/

set_option linter.unusedSectionVars false

namespace Verif
open MeasureTheory Function ProbabilityTheory

/-! ### Finitely many events decide about all quantiles -/

theorem quantile_events (ρ : Measure ℝ) [IsProbabilityMeasure ρ] {η : ℝ} (hη : 0 < η) :
    ∃ A : Finset ℝ × Finset ℝ, ∃ K : ℕ, 2 ≤ K ∧ ∀ n, K ≤ n → ∀ v : ℕ → ℝ,
      (∀ a ∈ A.1, |(∑ j ∈ Finset.range n, (Set.Iio a).indicator 1 (v j)) / n - ρ.real (Set.Iio a)| < η / 4) →
      (∀ a ∈ A.2, |(∑ j ∈ Finset.range n, (Set.Ioi a).indicator 1 (v j)) / n - ρ.real (Set.Ioi a)| < η / 4) →
      ∀ p, 0 ≤ p → p ≤ 1 →
        p - η ≤ ρ.real (Set.Iic
          (interpAt ((List.ofFn fun j : Fin n => v j).insertionSort (· ≤ ·)) (((n : ℝ) - 1) * p))) ∧
        ρ.real (Set.Iio
          (interpAt ((List.ofFn fun j : Fin n => v j).insertionSort (· ≤ ·)) (((n : ℝ) - 1) * p))) ≤ p + η := by
  classical
  have hmn : Measurable fun z : ℝ => -z := measurable_neg
  have hp2 : IsProbabilityMeasure (ρ.map fun z => -z) := Measure.isProbabilityMeasure_map hmn.aemeasurable
  obtain ⟨A1, hA1⟩ := exists_grid ρ (η := η / 4) (by positivity)
  obtain ⟨A2, hA2⟩ := exists_grid (ρ.map fun z => -z) (η := η / 4) (by positivity)
  obtain ⟨K2, hK2⟩ := exists_nat_gt (1 / (η / 4))
  refine ⟨(A1, A2.image fun a => -a), K2 + 2, by omega, fun n hn v h1 h2 => ?_⟩
  have hn0 : (0 : ℝ) < n := by exact_mod_cast (by omega : 0 < n)
  have hn1 : 1 / (n : ℝ) ≤ η / 4 := by
    rw [one_div_le hn0 (by positivity)]
    exact hK2.le.trans (by exact_mod_cast (by omega : K2 ≤ n))
  have cnt : ∀ (P Q : ℕ → Prop) [DecidablePred P] [DecidablePred Q], (∀ j, P j → Q j) →
      (∑ j ∈ Finset.range n, if P j then (1 : ℝ) else 0) / n ≤
        (∑ j ∈ Finset.range n, if Q j then (1 : ℝ) else 0) / n := by
    intro P Q _ _ h
    refine div_le_div_of_nonneg_right (Finset.sum_le_sum fun j _ => ?_) hn0.le
    by_cases hP : P j
    · rw [if_pos hP, if_pos (h j hP)]
    · rw [if_neg hP]; split <;> norm_num
  have cnt1 : ∀ (P : ℕ → Prop) [DecidablePred P], (∑ j ∈ Finset.range n, if P j then (1 : ℝ) else 0) / n ≤ 1 := by
    intro P _
    refine (cnt P (fun _ => True) fun _ _ => trivial).trans ?_
    simp [hn0.ne']
  have cntI : ∀ (P : ℕ → Prop) [DecidablePred P] (E : Set ℝ), (∀ j, P j → v j ∈ E) →
      (∑ j ∈ Finset.range n, if P j then (1 : ℝ) else 0) / n ≤
        (∑ j ∈ Finset.range n, E.indicator (1 : ℝ → ℝ) (v j)) / n := by
    intro P _ E h
    refine div_le_div_of_nonneg_right (Finset.sum_le_sum fun j _ => ?_) hn0.le
    by_cases hP : P j
    · rw [if_pos hP, Set.indicator_of_mem (h j hP)]; rfl
    · rw [if_neg hP]; exact Set.indicator_nonneg (fun _ _ => zero_le_one) _
  have up : ∀ y, (∑ j ∈ Finset.range n, if v j ≤ y then (1 : ℝ) else 0) / n ≤ ρ.real (Set.Iic y) + η / 2 := by
    intro y
    rcases hA1 y with h | ⟨a, ha, hya, h⟩
    · exact (cnt1 _).trans (h.trans (by linarith))
    · have hc := (abs_lt.1 (h1 a ha)).2
      have hle := cntI (fun j => v j ≤ y) (Set.Iio a) fun j hj => lt_of_le_of_lt hj hya
      linarith
  have low : ∀ y, ρ.real (Set.Iio y) - η / 2 ≤ (∑ j ∈ Finset.range n, if v j < y then (1 : ℝ) else 0) / n := by
    intro y
    have e1 : (ρ.map fun z => -z).real (Set.Iic (-y)) = 1 - ρ.real (Set.Iio y) := by
      rw [map_measureReal_apply hmn measurableSet_Iic, ← probReal_compl_eq_one_sub measurableSet_Iio]
      congr 1
      ext z
      simp
    have hsum : ∀ (P : ℕ → Prop) [DecidablePred P], (∑ j ∈ Finset.range n, if P j then (1 : ℝ) else 0) / n =
        1 - (∑ j ∈ Finset.range n, if ¬ P j then (1 : ℝ) else 0) / n := by
      intro P _
      rw [eq_sub_iff_add_eq, ← add_div, ← Finset.sum_add_distrib]
      have h1 : ∀ j, ((if P j then (1 : ℝ) else 0) + if ¬ P j then (1 : ℝ) else 0) = 1 := fun j => by
        by_cases h : P j <;> simp [h]
      rw [Finset.sum_congr rfl fun j _ => h1 j]
      simp [hn0.ne']
    rw [hsum]
    rcases hA2 (-y) with h | ⟨a, ha, hya, h⟩
    · rw [e1] at h
      have := cnt1 fun j => ¬ v j < y
      linarith
    · have e2 : (ρ.map fun z => -z).real (Set.Iio a) = ρ.real (Set.Ioi (-a)) := by
        rw [map_measureReal_apply hmn measurableSet_Iio]
        congr 1
        ext z
        simp
      rw [e1, e2] at h
      have hc := (abs_lt.1 (h2 (-a) (Finset.mem_image.2 ⟨a, ha, rfl⟩))).2
      have hle := cntI (fun j => ¬ v j < y) (Set.Ioi (-a)) fun j hj => by
        change -a < v j
        have := not_lt.1 hj
        linarith
      linarith
  intro p p0 p1
  set l := List.ofFn fun j : Fin n => v j with hl
  have hll : l.length = n := by rw [hl, List.length_ofFn]
  obtain ⟨c1, c2⟩ := quantile_counts (l := l) (by rw [hll]; omega) p0 p1
  rw [hll] at c1 c2
  set q := interpAt (l.insertionSort (· ≤ ·)) (((n : ℝ) - 1) * p)
  rw [hl, countP_ofFn] at c1 c2
  simp only [decide_eq_true_eq] at c1 c2
  rw [Fin.sum_univ_eq_sum_range (fun j => if v j ≤ q then (1 : ℝ) else 0) n] at c1
  rw [Fin.sum_univ_eq_sum_range (fun j => if v j < q then (1 : ℝ) else 0) n] at c2
  have f1 := up q
  have f2 := low q
  rw [div_le_iff₀ hn0] at f1
  rw [le_div_iff₀ hn0] at f2
  have hn2 : 1 ≤ n * (η / 4) := by rwa [div_le_iff₀ hn0, mul_comm] at hn1
  constructor
  · by_contra hlt
    have := mul_lt_mul_of_pos_right (not_le.1 hlt) hn0
    nlinarith
  · by_contra hlt
    have := mul_lt_mul_of_pos_right (not_le.1 hlt) hn0
    nlinarith

/-! ### Averages of independent values -/

theorem average_independent {W : Type} [MeasurableSpace W] (ν : Measure W) [IsProbabilityMeasure ν]
    {f : ℕ → W → ℝ} (hf : ∀ k, Measurable (f k)) (h01 : ∀ k w, 0 ≤ f k w ∧ f k w ≤ 1) {M : ℕ} (hM : 0 < M) {t : ℝ}
    (ht : 0 < t) :
    (Measure.infinitePi fun _ : ℕ => ν).real
      {w | t ≤ |(∑ k ∈ Finset.range M, f k (w k)) / M - (∑ k ∈ Finset.range M, ∫ z, f k z ∂ν) / M|} ≤
      1 / (t ^ 2 * M) := by
  set P := Measure.infinitePi fun _ : ℕ => ν
  have hM0 : (0 : ℝ) < M := by exact_mod_cast hM
  have hev : ∀ k : ℕ, MeasurePreserving (fun w : ℕ → W => w k) P ν := fun k =>
    measurePreserving_eval_infinitePi (fun _ : ℕ => ν) k
  have hind : iIndepFun (fun k (w : ℕ → W) => f k (w k)) P :=
    iIndepFun_infinitePi (P := fun _ : ℕ => ν) (X := f) hf
  have hm : ∀ k, Measurable fun w : ℕ → W => f k (w k) := fun k => (hf k).comp (measurable_pi_apply k)
  have hL2 : ∀ k, MemLp (fun w : ℕ → W => f k (w k)) 2 P := fun k =>
    memLp_of_bounded (a := 0) (b := 1) (ae_of_all _ fun w => h01 k (w k)) (hm k).aestronglyMeasurable 2
  have hvar : ∀ k, Var[fun w : ℕ → W => f k (w k); P] ≤ 1 := by
    intro k
    refine (variance_le_expectation_sq (hm k).aestronglyMeasurable).trans ?_
    have h1 : ∀ w : ℕ → W, ((fun w : ℕ → W => f k (w k)) ^ 2) w ≤ 1 := fun w => by
      have := h01 k (w k)
      change f k (w k) ^ 2 ≤ 1
      nlinarith
    have := integral_mono (hL2 k).integrable_sq (integrable_const (1 : ℝ)) h1
    simpa using this
  set S : (ℕ → W) → ℝ := fun w => ∑ k ∈ Finset.range M, f k (w k) with hS
  have hSL2 : MemLp S 2 P := memLp_finsetSum _ fun k _ => hL2 k
  have hSvar : Var[S; P] ≤ M := by
    have h1 : Var[∑ k ∈ Finset.range M, fun w : ℕ → W => f k (w k); P] =
        ∑ k ∈ Finset.range M, Var[fun w : ℕ → W => f k (w k); P] :=
      IndepFun.variance_sum (fun k _ => hL2 k) fun i _ j _ hij => hind.indepFun hij
    have h2 : (∑ k ∈ Finset.range M, fun w : ℕ → W => f k (w k)) = S := by
      funext w; simp [hS]
    rw [h2] at h1
    rw [h1]
    calc _ ≤ ∑ _k ∈ Finset.range M, (1 : ℝ) := Finset.sum_le_sum fun k _ => hvar k
      _ = M := by simp
  have hmean : ∫ w, S w ∂P = ∑ k ∈ Finset.range M, ∫ z, f k z ∂ν := by
    rw [hS, integral_finsetSum _ fun k _ => (hL2 k).integrable one_le_two]
    refine Finset.sum_congr rfl fun k _ => ?_
    rw [← (hev k).map_eq, integral_map (hev k).measurable.aemeasurable (hf k).aestronglyMeasurable]
  have hch := meas_ge_le_variance_div_sq hSL2 (c := t * M) (by positivity)
  have hset : {w | t ≤ |(∑ k ∈ Finset.range M, f k (w k)) / M - (∑ k ∈ Finset.range M, ∫ z, f k z ∂ν) / M|} =
      {w | t * M ≤ |S w - ∫ w, S w ∂P|} := by
    ext w
    rw [Set.mem_ofPred_eq, Set.mem_ofPred_eq, hmean, ← sub_div, abs_div, abs_of_pos hM0, le_div_iff₀ hM0]
  rw [hset]
  calc P.real {w | t * M ≤ |S w - ∫ w, S w ∂P|} ≤ (ENNReal.ofReal (Var[S; P] / (t * M) ^ 2)).toReal :=
        ENNReal.toReal_mono ENNReal.ofReal_ne_top hch
    _ = Var[S; P] / (t * M) ^ 2 := ENNReal.toReal_ofReal (div_nonneg (variance_nonneg _ _) (by positivity))
    _ ≤ M / (t * M) ^ 2 := div_le_div_of_nonneg_right hSvar (by positivity)
    _ = 1 / (t ^ 2 * M) := by field_simp

/-! ### Drawn rows -/

theorem ceil_row {n : ℕ} (hn : 0 < n) {j : ℕ} {u : ℝ} (h1 : (j : ℝ) / n < u) (h2 : u ≤ ((j + 1 : ℕ) : ℝ) / n) :
    ⌈u * n⌉.toNat - 1 = j := by
  have hn0 : (0 : ℝ) < n := by exact_mod_cast hn
  rw [div_lt_iff₀ hn0] at h1
  rw [le_div_iff₀ hn0] at h2
  have : ⌈u * n⌉ = (j : ℤ) + 1 := by
    rw [Int.ceil_eq_iff]
    push_cast at h2 ⊢
    constructor <;> linarith
  rw [this]
  omega

/-- a uniform draw picks every row with the same probability -/
theorem uniform_row {n : ℕ} (hn : 0 < n) (c : ℕ → ℝ) :
    ∫ u in Set.Icc (0 : ℝ) 1, c (⌈u * n⌉.toNat - 1) = (∑ j ∈ Finset.range n, c j) / n := by
  have hn0 : (0 : ℝ) < n := by exact_mod_cast hn
  have hlt : ∀ j : ℕ, (j : ℝ) / n ≤ ((j + 1 : ℕ) : ℝ) / n := fun j =>
    div_le_div_of_nonneg_right (by push_cast; linarith) hn0.le
  have hc : ∀ j : ℕ, ∀ u ∈ Set.Ioc ((j : ℝ) / n) (((j + 1 : ℕ) : ℝ) / n), c (⌈u * n⌉.toNat - 1) = c j :=
    fun j u hu => by rw [ceil_row hn hu.1 hu.2]
  have hint : ∀ j < n, IntervalIntegrable (fun u : ℝ => c (⌈u * n⌉.toNat - 1)) volume ((j : ℝ) / n)
      (((j + 1 : ℕ) : ℝ) / n) := by
    intro j _
    rw [intervalIntegrable_iff_integrableOn_Ioc_of_le (hlt j)]
    refine IntegrableOn.congr_fun (f := fun _ => c j) ?_ (fun u hu => (hc j u hu).symm) measurableSet_Ioc
    exact integrableOn_const (by simp)
  have hsum := intervalIntegral.sum_integral_adjacent_intervals (μ := volume) (n := n)
    (a := fun j : ℕ => (j : ℝ) / n) (f := fun u : ℝ => c (⌈u * n⌉.toNat - 1)) hint
  have e0 : ((0 : ℕ) : ℝ) / n = 0 := by simp
  have e1 : ((n : ℕ) : ℝ) / n = 1 := div_self hn0.ne'
  rw [e0, e1, intervalIntegral.integral_of_le zero_le_one, ← integral_Icc_eq_integral_Ioc] at hsum
  rw [← hsum, Finset.sum_div]
  refine Finset.sum_congr rfl fun j _ => ?_
  rw [intervalIntegral.integral_of_le (hlt j), setIntegral_congr_fun measurableSet_Ioc (hc j),
    setIntegral_const, Measure.real, Real.volume_Ioc, ENNReal.toReal_ofReal (by linarith [hlt j])]
  push_cast
  rw [smul_eq_mul]
  field_simp
  ring

section harris
variable {X σ : Type} [MeasurableSpace X] [MeasurableSpace σ] {μ : Measure σ} [IsProbabilityMeasure μ]
  {T : X × σ → X × σ} {π : Measure X}

/-- position of the row used for sample `k`: row `k` itself, or the one drawn with `u` -/
noncomputable def pickRow (all : Bool) (n : ℕ) (k : ℕ) (u : ℝ) : ℕ :=
  if all then k else ⌈u * n⌉.toNat - 1

theorem measurable_pickRow (all : Bool) (n k : ℕ) : Measurable (pickRow all n k) := by
  unfold pickRow
  cases all
  · simp only [Bool.false_eq_true, if_false]
    have h1 : Measurable fun u : ℝ => ⌈u * n⌉ := Int.measurable_ceil.comp (measurable_id.mul_const _)
    exact (Measurable.of_discrete (f := fun z : ℤ => z.toNat - 1)).comp h1
  · simp

/-- Averages of functions `χ (row, draw)` with values in `[0,1]`, over `M` rows (all or drawn) with independent draws. -/
theorem Harris.resampledFn (H : Harris μ T π) {S : Set X} (hS : MeasurableSet S)
    (hsp : ∀ x ∈ S, Spreads μ T π x)
    (keep : ∀ x ∈ S, ∀ᵐ s ∂μ, (T (x, s)).1 ∈ S) (hπS : π Sᶜ = 0) {x : X} (hx : x ∈ S) {η ε : ℝ}
    (hη : 0 < η) (hε : 0 < ε) {κ : Type} [Fintype κ] {γ : Measure ℝ} [IsProbabilityMeasure γ]
    {χ : κ → X × ℝ → ℝ} (hχ : ∀ c, Measurable (χ c)) (hχ01 : ∀ c z, 0 ≤ χ c z ∧ χ c z ≤ 1)
    {W : Type} [MeasurableSpace W] {ν : Measure W} [IsProbabilityMeasure ν] {u : W → ℝ} (hu : Measurable u)
    {ζ : κ → W → ℝ} (hζ : ∀ c, Measurable (ζ c))
    (hlaw : ∀ c, ν.map (fun w => (u w, ζ c w)) = (volume.restrict (Set.Icc (0 : ℝ) 1)).prod γ) :
    ∃ K : ℕ, ∀ n b M, K ≤ M → M ≤ n → b ≤ n → ∀ all : Bool, (all = true → M = n) →
      ∃ B : Set (σ × (ℕ → W)), MeasurableSet B ∧ (μ.prod (Measure.infinitePi fun _ : ℕ => ν)).real B ≤ ε ∧
      ∀ s w, (s, w) ∉ B → ∀ c,
        |(∑ k ∈ Finset.range M, χ c ((T^[b + pickRow all n k (u (w k))] (x, s)).1, ζ c (w k))) / M -
          ∫ z, χ c z ∂(π.prod γ)| < η := by
  have hprob := H.prob
  have hχi : ∀ {Y : Type} [MeasurableSpace Y] (m : Measure Y) [IsProbabilityMeasure m] (f : Y → ℝ), Measurable f →
      (∀ y, 0 ≤ f y ∧ f y ≤ 1) → Integrable f m := fun m _ f hf h =>
    Integrable.of_mem_Icc 0 1 hf.aemeasurable (ae_of_all _ h)
  obtain ⟨h, hdef⟩ : ∃ h : κ → X → ℝ, ∀ c y, h c y = ∫ z, χ c (y, z) ∂γ := ⟨_, fun _ _ => rfl⟩
  have hh : ∀ c, Measurable (h c) := fun c => by
    have := ((hχ c).stronglyMeasurable.integral_prod_right' (ν := γ)).measurable
    rwa [show h c = fun y => ∫ z, χ c (y, z) ∂γ from funext (hdef c)]
  have hχy : ∀ c y, Measurable fun z => χ c (y, z) := fun c y => (hχ c).comp measurable_prodMk_left
  have hh01 : ∀ c y, 0 ≤ h c y ∧ h c y ≤ 1 := by
    intro c y
    rw [hdef]
    refine ⟨integral_nonneg fun z => (hχ01 c _).1, ?_⟩
    have := integral_mono (hχi γ _ (hχy c y) fun z => hχ01 c _) (integrable_const (1 : ℝ)) fun z => (hχ01 c (y, z)).2
    simpa using this
  have hhint : ∀ c, ∫ y, h c y ∂π = ∫ z, χ c z ∂(π.prod γ) := by
    intro c
    simp only [hdef]
    exact (integral_prod _ (hχi (π.prod γ) _ (hχ c) (hχ01 c))).symm
  obtain ⟨K1, hK10, hK1⟩ := H.windowFn hS hsp keep hπS hx (η := η / 2) (ε := ε / 2) (by positivity) (by positivity)
    hh hh01
  obtain ⟨K2, hK2⟩ := exists_nat_gt ((Fintype.card κ : ℝ) / ((η / 2) ^ 2 * (ε / 2)))
  refine ⟨K1 + K2 + 1, fun n b M hKM hMn hbn all hall => ?_⟩
  have hM0 : 0 < M := by omega
  have hMr : (0 : ℝ) < M := by exact_mod_cast hM0
  have hn0 : 0 < n := by omega
  obtain ⟨B, hB, hBε, hgood⟩ := hK1 n b (by omega) hbn
  set P := Measure.infinitePi fun _ : ℕ => ν
  obtain ⟨Xr, hXd⟩ : ∃ Xr : ℕ → σ → X, ∀ j s, Xr j s = (T^[b + j] (x, s)).1 := ⟨_, fun _ _ => rfl⟩
  simp only [← hXd] at hgood ⊢
  have hXr : ∀ j, Measurable (Xr j) := fun j => by
    rw [show Xr j = fun s => (T^[b + j] (x, s)).1 from funext (hXd j)]
    exact H.fresh.measurable_row (b + j) x
  obtain ⟨f, hfd⟩ : ∃ f : κ → σ → ℕ → W → ℝ, ∀ c s k w, f c s k w = χ c (Xr (pickRow all n k (u w)) s, ζ c w) :=
    ⟨_, fun _ _ _ _ => rfl⟩
  simp only [← hfd]
  have hf01 : ∀ c s k w, 0 ≤ f c s k w ∧ f c s k w ≤ 1 := fun c s k w => by rw [hfd]; exact hχ01 c _
  have hf2 : ∀ c k, Measurable fun z : σ × W => f c z.1 k z.2 := by
    intro c k
    simp only [hfd]
    have h1 : Measurable fun z : ℕ × σ => Xr z.1 z.2 := measurable_from_prod_countable_right hXr
    have h2 : Measurable fun z : σ × W => (pickRow all n k (u z.2), z.1) :=
      ((measurable_pickRow all n k).comp (hu.comp measurable_snd)).prodMk measurable_fst
    exact (hχ c).comp ((h1.comp h2).prodMk ((hζ c).comp measurable_snd))
  have hmean : ∀ c s, (∑ k ∈ Finset.range M, ∫ w, f c s k w ∂ν) / M = (∑ j ∈ Finset.range n, h c (Xr j s)) / n := by
    intro c s
    have hk : ∀ k, ∫ w, f c s k w ∂ν = ∫ r in Set.Icc (0 : ℝ) 1, h c (Xr (pickRow all n k r) s) := by
      intro k
      have hprobU : IsProbabilityMeasure (volume.restrict (Set.Icc (0 : ℝ) 1)) := ⟨by simp⟩
      have hF : Measurable fun z : ℝ × ℝ => χ c (Xr (pickRow all n k z.1) s, z.2) := by
        have h1 : Measurable fun j : ℕ => Xr j s := Measurable.of_discrete
        exact (hχ c).comp ((h1.comp ((measurable_pickRow all n k).comp measurable_fst)).prodMk measurable_snd)
      have h1 : ∫ w, f c s k w ∂ν = ∫ z, χ c (Xr (pickRow all n k z.1) s, z.2)
          ∂((volume.restrict (Set.Icc (0 : ℝ) 1)).prod γ) := by
        rw [← hlaw c, integral_map (hu.prodMk (hζ c)).aemeasurable hF.aestronglyMeasurable]
        simp only [hfd]
      rw [h1, integral_prod _ (hχi _ _ hF fun z => hχ01 c _)]
      simp only [hdef]
    simp only [hk]
    cases all with
    | true =>
      have hMn' := hall rfl
      subst hMn'
      congr 1
      refine Finset.sum_congr rfl fun k _ => ?_
      simp [pickRow]
    | false =>
      have hu' : ∀ k, ∫ r in Set.Icc (0 : ℝ) 1, h c (Xr (pickRow false n k r) s) =
          (∑ j ∈ Finset.range n, h c (Xr j s)) / n := fun k => by
        simp only [pickRow, Bool.false_eq_true, if_false]
        exact uniform_row hn0 fun j => h c (Xr j s)
      simp only [hu', Finset.sum_const, Finset.card_range, nsmul_eq_mul]
      field_simp
  obtain ⟨Bc, hBd⟩ : ∃ Bc : κ → Set (σ × (ℕ → W)), ∀ c, Bc c = {z | η / 2 ≤
    |(∑ k ∈ Finset.range M, f c z.1 k (z.2 k)) / M - (∑ j ∈ Finset.range n, h c (Xr j z.1)) / n|} := ⟨_, fun _ => rfl⟩
  have hBc : ∀ c, MeasurableSet (Bc c) := by
    intro c
    have h0 : ∀ k, Measurable fun z : σ × (ℕ → W) => (z.1, z.2 k) := fun k =>
      measurable_fst.prodMk ((measurable_pi_apply k).comp measurable_snd)
    have h1 : Measurable fun z : σ × (ℕ → W) => ∑ k ∈ Finset.range M, f c z.1 k (z.2 k) :=
      Finset.measurable_sum _ fun k _ => (hf2 c k).comp (h0 k)
    have h2 : Measurable fun z : σ × (ℕ → W) => ∑ j ∈ Finset.range n, h c (Xr j z.1) :=
      Finset.measurable_sum _ fun j _ => (hh c).comp ((hXr j).comp measurable_fst)
    rw [hBd]
    exact measurableSet_le measurable_const ((h1.div_const _).sub (h2.div_const _)).abs
  have hBcε : ∀ c, (μ.prod P).real (Bc c) ≤ 1 / ((η / 2) ^ 2 * M) := by
    intro c
    have hle : (μ.prod P) (Bc c) ≤ ENNReal.ofReal (1 / ((η / 2) ^ 2 * M)) := by
      rw [Measure.prod_apply (hBc c)]
      calc ∫⁻ s, P (Prod.mk s ⁻¹' Bc c) ∂μ ≤ ∫⁻ _, ENNReal.ofReal (1 / ((η / 2) ^ 2 * M)) ∂μ := by
            refine lintegral_mono fun s => ?_
            have h1 := average_independent ν (f := f c s)
              (fun k => (hf2 c k).comp measurable_prodMk_left) (hf01 c s) hM0 (t := η / 2) (by positivity)
            rw [hmean c s] at h1
            rw [← ofReal_measureReal, hBd]
            exact ENNReal.ofReal_le_ofReal h1
        _ = _ := by simp
    exact ENNReal.toReal_le_of_le_ofReal (by positivity) hle
  refine ⟨B ×ˢ Set.univ ∪ ⋃ c, Bc c, (hB.prod .univ).union (.iUnion hBc), ?_, fun s w hsw c => ?_⟩
  · have h1 : (μ.prod P).real (B ×ˢ Set.univ) ≤ ε / 2 := by
      rw [measureReal_prod_prod]
      simpa using hBε
    have h2 : (μ.prod P).real (⋃ c, Bc c) ≤ ε / 2 := by
      calc _ ≤ ∑ c, (μ.prod P).real (Bc c) := measureReal_iUnion_fintype_le _
        _ ≤ ∑ _c : κ, 1 / ((η / 2) ^ 2 * M) := Finset.sum_le_sum fun c _ => hBcε c
        _ = Fintype.card κ / ((η / 2) ^ 2 * M) := by
          rw [Finset.sum_const, nsmul_eq_mul, Finset.card_univ, mul_one_div]
        _ ≤ ε / 2 := by
          rw [div_lt_iff₀ (by positivity)] at hK2
          rw [div_le_iff₀ (by positivity)]
          have : (K2 : ℝ) ≤ M := by exact_mod_cast (by omega : K2 ≤ M)
          have h3 : (0 : ℝ) ≤ (η / 2) ^ 2 * (ε / 2) := by positivity
          nlinarith
    exact (measureReal_union_le _ _).trans (by linarith)
  · rw [Set.mem_union, not_or, Set.mem_iUnion, not_exists] at hsw
    have hsB : s ∉ B := fun h => hsw.1 ⟨h, trivial⟩
    have h1 := hsw.2 c
    rw [hBd, Set.mem_ofPred_eq, not_le] at h1
    have h2 := hgood s hsB c
    rw [hhint c] at h2
    have h3 := abs_sub_le ((∑ k ∈ Finset.range M, f c s k (w k)) / (M : ℝ))
      ((∑ j ∈ Finset.range n, h c (Xr j s)) / n) (∫ z, χ c z ∂(π.prod γ))
    linarith

/-- Quantiles of values `V (row, draw)`, computed at `M` rows (all or drawn) with independent draws, cut off the right
probabilities of `V` under the posterior and the law of the draws. -/
theorem Harris.resampled (H : Harris μ T π) {S : Set X} (hS : MeasurableSet S)
    (hsp : ∀ x ∈ S, Spreads μ T π x)
    (keep : ∀ x ∈ S, ∀ᵐ s ∂μ, (T (x, s)).1 ∈ S) (hπS : π Sᶜ = 0) {x : X} (hx : x ∈ S) {η ε : ℝ}
    (hη : 0 < η) (hε : 0 < ε) {ι : Type} [Fintype ι] {γ : Measure ℝ} [IsProbabilityMeasure γ]
    {V : ι → X × ℝ → ℝ} (hV : ∀ a, Measurable (V a))
    {W : Type} [MeasurableSpace W] {ν : Measure W} [IsProbabilityMeasure ν] {u : W → ℝ} (hu : Measurable u)
    {ζ : ι → W → ℝ} (hζ : ∀ a, Measurable (ζ a))
    (hlaw : ∀ a, ν.map (fun w => (u w, ζ a w)) = (volume.restrict (Set.Icc (0 : ℝ) 1)).prod γ) :
    ∃ K : ℕ, 2 ≤ K ∧ ∀ n b M, K ≤ M → M ≤ n → b ≤ n → ∀ all : Bool, (all = true → M = n) →
      ∃ B : Set (σ × (ℕ → W)), MeasurableSet B ∧ (μ.prod (Measure.infinitePi fun _ : ℕ => ν)).real B ≤ ε ∧
      ∀ s w, (s, w) ∉ B → ∀ a p, 0 ≤ p → p ≤ 1 → ∀ q,
        q = interpAt ((List.ofFn fun k : Fin M =>
          V a ((T^[b + pickRow all n k (u (w k))] (x, s)).1, ζ a (w k))).insertionSort (· ≤ ·)) (((M : ℝ) - 1) * p) →
        p - η ≤ (π.prod γ).real {z | V a z ≤ q} ∧ (π.prod γ).real {z | V a z < q} ≤ p + η := by
  classical
  have hprob := H.prob
  have hprob1 : ∀ a, IsProbabilityMeasure ((π.prod γ).map (V a)) := fun a =>
    Measure.isProbabilityMeasure_map (hV a).aemeasurable
  choose A Ka hKa2 hA using fun a => quantile_events ((π.prod γ).map (V a)) hη
  let κ := Σ a : ι, {y // y ∈ (A a).1} ⊕ {y // y ∈ (A a).2}
  let Ev : κ → Set ℝ := fun c => Sum.elim (fun y => Set.Iio y.1) (fun y => Set.Ioi y.1) c.2
  have hEv : ∀ c, MeasurableSet (Ev c) := by
    rintro ⟨a, y | y⟩
    · exact measurableSet_Iio
    · exact measurableSet_Ioi
  obtain ⟨K, hK⟩ := H.resampledFn hS hsp keep hπS hx (η := η / 4) (ε := ε) (by positivity) hε (κ := κ) (γ := γ)
    (χ := fun c z => (Ev c).indicator 1 (V c.1 z)) (fun c => (measurable_one.indicator (hEv c)).comp (hV c.1))
    (fun c z => by
      by_cases h : V c.1 z ∈ Ev c
      · rw [Set.indicator_of_mem h]; simp
      · rw [Set.indicator_of_notMem h]; simp) hu (ζ := fun c => ζ c.1) (fun c => hζ c.1) fun c => hlaw c.1
  refine ⟨K + (∑ a, Ka a) + 2, by omega, fun n b M hKM hMn hbn all hall => ?_⟩
  obtain ⟨B, hB, hBε, hgood⟩ := hK n b M (by omega) hMn hbn all hall
  refine ⟨B, hB, hBε, fun s w hsw a p p0 p1 q hq => ?_⟩
  have hint : ∀ c : κ, ∫ z, (Ev c).indicator (1 : ℝ → ℝ) (V c.1 z) ∂(π.prod γ) =
      ((π.prod γ).map (V c.1)).real (Ev c) := by
    intro c
    rw [map_measureReal_apply (hV c.1) (hEv c), ← integral_indicator_one ((hV c.1) (hEv c))]
    rfl
  have hclose := fun c : κ => hgood s w hsw c
  simp only [hint] at hclose
  have hKaM : Ka a ≤ M := by
    have := Finset.single_le_sum (f := Ka) (fun _ _ => Nat.zero_le _) (Finset.mem_univ a)
    omega
  have hfin := hA a M hKaM (fun k => V a ((T^[b + pickRow all n k (u (w k))] (x, s)).1, ζ a (w k)))
    (fun y hy => hclose ⟨a, .inl ⟨y, hy⟩⟩) (fun y hy => hclose ⟨a, .inr ⟨y, hy⟩⟩) p p0 p1
  rw [map_measureReal_apply (hV a) measurableSet_Iic, map_measureReal_apply (hV a) measurableSet_Iio] at hfin
  subst hq
  exact hfin

end harris

end Verif
