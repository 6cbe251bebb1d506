import Verif.Lemmas.SettledFactor
import Mathlib.MeasureTheory.Integral.Bochner.Basic

/-! # Averages along chains whose late rows are nearly independent of early ones -/

set_option linter.unusedSectionVars false

namespace Verif
open MeasureTheory Function Matrix
open scoped ENNReal

section moment
variable {σ : Type} [MeasurableSpace σ] {μ : Measure σ} [IsProbabilityMeasure μ]

/-- The second moment of a sum of bounded variables, of which those `K` apart are nearly uncorrelated from time
`J` on. -/
theorem sum_second_moment {g : ℕ → σ → ℝ} (hg : ∀ j, Measurable (g j)) (hgb : ∀ j s, ‖g j s‖ ≤ 1) {K J : ℕ}
    {b : ℕ → ℝ} (hb : ∀ j, 0 ≤ b j) (hcor : ∀ j, J ≤ j → ∀ i ≤ j - K, ∫ s, g i s * g j s ∂μ ≤ b j) (k : ℕ) :
    ∫ s, (∑ j ∈ Finset.range k, g j s) ^ 2 ∂μ ≤ k * (1 + 2 * K + 2 * J) + 2 * k * ∑ j ∈ Finset.Ico J k, b j := by
  have hgi : ∀ i j, Integrable (fun s => g i s * g j s) μ := fun i j =>
    Integrable.of_bound ((hg i).mul (hg j)).aestronglyMeasurable 1 (ae_of_all _ fun s => by
      rw [norm_mul]; exact mul_le_one₀ (hgb i s) (norm_nonneg _) (hgb j s))
  have hone : ∀ i j, ∫ s, g i s * g j s ∂μ ≤ 1 := fun i j => by
    calc ∫ s, g i s * g j s ∂μ ≤ ∫ _, (1 : ℝ) ∂μ := by
          refine integral_mono (hgi i j) (integrable_const _) fun s => ?_
          refine (le_abs_self _).trans ?_
          rw [abs_mul]
          exact mul_le_one₀ (hgb i s) (abs_nonneg _) (hgb j s)
      _ = 1 := by simp
  have hSi : ∀ k, Integrable (fun s => (∑ j ∈ Finset.range k, g j s) ^ 2) μ := by
    intro k
    simp only [pow_two, Finset.sum_mul_sum]
    exact integrable_finsetSum _ fun i _ => integrable_finsetSum _ fun j _ => hgi i j
  have hSg : ∀ k, Integrable (fun s => (∑ j ∈ Finset.range k, g j s) * g k s) μ := by
    intro k
    simp only [Finset.sum_mul]
    exact integrable_finsetSum _ fun i _ => hgi i k
  induction k with
  | zero => simp
  | succ k ih =>
    have e : ∀ s, (∑ j ∈ Finset.range (k + 1), g j s) ^ 2 =
        (∑ j ∈ Finset.range k, g j s) ^ 2 + (2 * ((∑ j ∈ Finset.range k, g j s) * g k s) + g k s * g k s) := by
      intro s
      rw [Finset.sum_range_succ]; ring
    simp only [e]
    have hadd : Integrable (fun s => 2 * ((∑ j ∈ Finset.range k, g j s) * g k s) + g k s * g k s) μ :=
      ((hSg k).const_mul 2).add (hgi k k)
    rw [integral_add (hSi k) hadd, integral_add ((hSg k).const_mul 2) (hgi k k), integral_const_mul]
    have hdiag := hone k k
    have hsb : 0 ≤ ∑ j ∈ Finset.Ico J k, b j := Finset.sum_nonneg fun j _ => hb j
    have hsb' : 0 ≤ ∑ j ∈ Finset.Ico J (k + 1), b j := Finset.sum_nonneg fun j _ => hb j
    have hK0 : (0 : ℝ) ≤ K := Nat.cast_nonneg _
    have hJ0 : (0 : ℝ) ≤ J := Nat.cast_nonneg _
    have hk0 : (0 : ℝ) ≤ k := Nat.cast_nonneg _
    simp only [Finset.sum_mul]
    rw [integral_finsetSum _ fun i _ => hgi i k]
    by_cases hk : k < J
    · have h1 : ∑ i ∈ Finset.range k, ∫ s, g i s * g k s ∂μ ≤ J := by
        calc _ ≤ ∑ i ∈ Finset.range k, (1 : ℝ) := Finset.sum_le_sum fun i _ => hone i k
          _ = k := by simp
          _ ≤ J := by exact_mod_cast hk.le
      have h2 : ∑ j ∈ Finset.Ico J k, b j = 0 := by
        rw [Finset.Ico_eq_empty (by omega)]; simp
      have h3 : ∑ j ∈ Finset.Ico J (k + 1), b j = 0 := by
        rw [Finset.Ico_eq_empty (by omega)]; simp
      rw [h2] at ih
      rw [h3]
      push_cast
      linarith
    · have h1 : ∑ i ∈ Finset.range k, ∫ s, g i s * g k s ∂μ ≤ k * b k + K := by
        have h2 : ∀ i ∈ Finset.range k, ∫ s, g i s * g k s ∂μ ≤ b k + if k - K < i then 1 else 0 := by
          intro i _
          split_ifs with h
          · linarith [hone i k, hb k]
          · rw [add_zero]
            exact hcor k (by omega) i (by omega)
        have h3 : (∑ i ∈ Finset.range k, if k - K < i then (1 : ℝ) else 0) ≤ K := by
          rw [← Finset.sum_filter]
          simp only [Finset.sum_const, nsmul_eq_mul, mul_one]
          have : Finset.filter (fun i => k - K < i) (Finset.range k) ⊆ Finset.Ico (k - K) k := by
            intro i hi
            simp only [Finset.mem_filter, Finset.mem_range] at hi
            simp only [Finset.mem_Ico]
            omega
          have := Finset.card_le_card this
          rw [Nat.card_Ico] at this
          exact_mod_cast this.trans (by omega)
        calc _ ≤ ∑ i ∈ Finset.range k, (b k + if k - K < i then 1 else 0) := Finset.sum_le_sum h2
          _ = k * b k + ∑ i ∈ Finset.range k, (if k - K < i then (1 : ℝ) else 0) := by
            rw [Finset.sum_add_distrib]; simp
          _ ≤ _ := by linarith
      rw [Finset.sum_Ico_succ_top (by omega)]
      push_cast
      have := hb k
      linarith

/-- Chebyshev's bound for the average of a function that is bounded where the rows lie. -/
theorem average_of_moment {X : Type} [MeasurableSpace X] {π : Measure X} [IsProbabilityMeasure π]
    {row : ℕ → σ → X} (hrow : ∀ j, Measurable (row j)) {S : Set X} (hS : ∀ j s, row j s ∈ S) (hπS : π Sᶜ = 0)
    {k : ℕ} (hk : 0 < k) {W : ℝ}
    (hmom : ∀ F : X → ℝ, Measurable F → (∀ y, 0 ≤ F y) → (∀ y, F y ≤ 1) →
      ∫ s, (∑ j ∈ Finset.range k, (F (row j s) - ∫ y, F y ∂π)) ^ 2 ∂μ ≤ W)
    {f : X → ℝ} (hf : Measurable f) {c : ℝ} (hc : 0 < c) (hfc : ∀ x ∈ S, |f x| ≤ c) {η : ℝ} (hη : 0 < η) :
    μ.real {s | η ≤ |(∑ j ∈ Finset.range k, f (row j s)) / k - ∫ y, f y ∂π|} ≤ 4 * c ^ 2 * W / (k ^ 2 * η ^ 2) := by
  let F : X → ℝ := fun y => (max (-c) (min c (f y)) + c) / (2 * c)
  have hF : Measurable F := ((measurable_const.max (measurable_const.min hf)).add_const c).div_const _
  have hF0 : ∀ y, 0 ≤ F y := fun y => div_nonneg (by linarith [le_max_left (-c) (min c (f y))]) (by linarith)
  have hF1 : ∀ y, F y ≤ 1 := fun y => by
    rw [div_le_one (by linarith)]
    have : max (-c) (min c (f y)) ≤ c := max_le (by linarith) (min_le_left _ _)
    linarith
  have hFf : ∀ y ∈ S, f y = 2 * c * F y - c := by
    intro y hy
    have := abs_le.1 (hfc y hy)
    simp only [F]
    rw [min_eq_right this.2, max_eq_right this.1]
    field_simp
    ring
  have hFi : Integrable F π := Integrable.of_bound hF.aestronglyMeasurable 1
    (ae_of_all _ fun y => by rw [Real.norm_eq_abs, abs_of_nonneg (hF0 y)]; exact hF1 y)
  have haeπ : ∀ᵐ y ∂π, y ∈ S := hπS
  have hπf : ∫ y, f y ∂π = 2 * c * ∫ y, F y ∂π - c := by
    rw [integral_congr_ae (haeπ.mono hFf), integral_sub (hFi.const_mul _) (integrable_const _), integral_const_mul]
    simp
  have hm := hmom F hF hF0 hF1
  set p := ∫ y, F y ∂π with hp
  have hk0 : (0 : ℝ) < k := by exact_mod_cast hk
  have hmeas : Measurable fun s => ∑ j ∈ Finset.range k, (F (row j s) - p) :=
    Finset.measurable_sum _ fun j _ => (hF.comp (hrow j)).sub_const p
  have hp0 : 0 ≤ p := integral_nonneg hF0
  have hp1 : p ≤ 1 := by
    calc p ≤ ∫ _, (1 : ℝ) ∂π := integral_mono hFi (integrable_const _) hF1
      _ = 1 := by simp
  have hSi : Integrable (fun s => (∑ j ∈ Finset.range k, (F (row j s) - p)) ^ 2) μ := by
    refine Integrable.of_bound (hmeas.pow_const 2).aestronglyMeasurable ((k : ℝ) ^ 2) (ae_of_all _ fun s => ?_)
    rw [norm_pow]
    gcongr
    refine (norm_sum_le _ _).trans ?_
    calc ∑ j ∈ Finset.range k, ‖F (row j s) - p‖ ≤ ∑ j ∈ Finset.range k, (1 : ℝ) :=
          Finset.sum_le_sum fun j _ => by
            rw [Real.norm_eq_abs, abs_le]
            constructor <;> linarith [hF0 (row j s), hF1 (row j s)]
      _ = k := by simp
  set t := (k * η / (2 * c)) ^ 2 with ht
  have ht0 : 0 < t := by positivity
  have hsub : {s | η ≤ |(∑ j ∈ Finset.range k, f (row j s)) / k - ∫ y, f y ∂π|} ⊆
      {s | t ≤ (∑ j ∈ Finset.range k, (F (row j s) - p)) ^ 2} := by
    intro s h
    change η ≤ _ at h
    change t ≤ _
    have e : (∑ j ∈ Finset.range k, f (row j s)) / k - ∫ y, f y ∂π =
        2 * c / k * ∑ j ∈ Finset.range k, (F (row j s) - p) := by
      rw [hπf, Finset.sum_congr rfl fun j _ => hFf _ (hS j s), Finset.sum_sub_distrib, Finset.sum_sub_distrib,
        ← Finset.mul_sum]
      simp only [Finset.sum_const, Finset.card_range, nsmul_eq_mul]
      field_simp
      ring
    rw [e, abs_mul, abs_of_pos (by positivity)] at h
    rw [ht, ← sq_abs (∑ j ∈ Finset.range k, (F (row j s) - p))]
    refine pow_le_pow_left₀ (by positivity) ?_ 2
    rw [div_le_iff₀ (by positivity)]
    rw [div_mul_eq_mul_div, le_div_iff₀ hk0] at h
    linarith
  have hch := mul_meas_ge_le_integral_of_nonneg (ae_of_all _ fun s => sq_nonneg _) hSi t
  refine (measureReal_mono hsub).trans ?_
  rw [le_div_iff₀ (by positivity)]
  have h3 := hch.trans hm
  set m := μ.real {s | t ≤ (∑ j ∈ Finset.range k, (F (row j s) - p)) ^ 2}
  have e2 : m * (k ^ 2 * η ^ 2) = (t * m) * (4 * c ^ 2) := by
    rw [ht]; field_simp; ring
  rw [e2]
  calc (t * m) * (4 * c ^ 2) ≤ W * (4 * c ^ 2) := by gcongr
    _ = 4 * c ^ 2 * W := by ring

end moment

section process
variable {σ : Type} [MeasurableSpace σ] {μ : Measure σ} [IsProbabilityMeasure μ] {G : Rng σ XR} {n : ℕ}

/-- The second moment of the sums along a process whose late rows are nearly independent of early ones. -/
theorem moment_of_weighted {X M : Type} [MeasurableSpace X] [MeasurableSpace M] {T : M → X × σ → X × σ}
    (hT : Measurable fun p : M × X × σ => T p.1 p.2) (hf : ∀ R, Fresh μ (T R)) {next : ℕ → (ℕ → X × M) → M}
    (hn : ∀ j, Measurable (next j)) (x : X) (R0 : M) {π : Measure X} [IsProbabilityMeasure π] {K J : ℕ} {b : ℕ → ℝ}
    (hb : ∀ j, 0 ≤ b j)
    (h : ∀ j, J ≤ j → ∀ V : (ℕ → X × M) → ℝ≥0∞, Measurable V → (∀ h, V h ≤ 1) →
      (∀ h h' : ℕ → X × M, (∀ i ≤ j - K, h i = h' i) → V h = V h') →
      ∀ f : X → ℝ≥0∞, Measurable f → (∀ y, f y ≤ 1) →
      |(∫⁻ s, V (histAfter T next x R0 (j - K) s).1 * f ((histAfter T next x R0 j s).1 j).1 ∂μ).toReal -
        (∫⁻ y, f y ∂π).toReal * (∫⁻ s, V (histAfter T next x R0 (j - K) s).1 ∂μ).toReal| ≤ b j)
    (k : ℕ) (F : X → ℝ) (hF : Measurable F) (hF0 : ∀ y, 0 ≤ F y) (hF1 : ∀ y, F y ≤ 1) :
    ∫ s, (∑ j ∈ Finset.range k, (F ((histAfter T next x R0 j s).1 j).1 - ∫ y, F y ∂π)) ^ 2 ∂μ ≤
      k * (1 + 2 * K + 2 * J) + 2 * k * ∑ j ∈ Finset.Ico J k, 2 * b j := by
  set Hs := histAfter T next x R0 with hHs
  have hmr : ∀ j, Measurable fun s => ((Hs j s).1 j).1 := fun j => measurable_fst.comp ((measurable_pi_apply j).comp
    (measurable_fst.comp (histAfter_fresh hT hf hn x R0 j).1))
  have hFi : Integrable F π := Integrable.of_bound hF.aestronglyMeasurable 1
    (ae_of_all _ fun y => by rw [Real.norm_eq_abs, abs_of_nonneg (hF0 y)]; exact hF1 y)
  set p := ∫ y, F y ∂π with hp
  have hp0 : 0 ≤ p := integral_nonneg hF0
  have hp1 : p ≤ 1 := by
    calc p ≤ ∫ _, (1 : ℝ) ∂π := integral_mono hFi (integrable_const _) hF1
      _ = 1 := by simp
  have hpl : (∫⁻ y, ENNReal.ofReal (F y) ∂π).toReal = p := by
    rw [hp, integral_eq_lintegral_of_nonneg_ae (ae_of_all _ hF0) hF.aestronglyMeasurable]
  let Y : ℕ → σ → ℝ := fun j s => F ((Hs j s).1 j).1
  have hY : ∀ j, Measurable (Y j) := fun j => hF.comp (hmr j)
  have hYi : ∀ j, Integrable (Y j) μ := fun j => Integrable.of_bound (hY j).aestronglyMeasurable 1
    (ae_of_all _ fun s => by rw [Real.norm_eq_abs, abs_of_nonneg (hF0 _)]; exact hF1 _)
  have hYY : ∀ i j, Integrable (fun s => Y i s * Y j s) μ := fun i j =>
    Integrable.of_bound ((hY i).mul (hY j)).aestronglyMeasurable 1 (ae_of_all _ fun s => by
      rw [Real.norm_eq_abs, abs_of_nonneg (mul_nonneg (hF0 _) (hF0 _))]
      exact mul_le_one₀ (hF1 _) (hF0 _) (hF1 _))
  have hYl : ∀ j, (∫⁻ s, ENNReal.ofReal (Y j s) ∂μ).toReal = ∫ s, Y j s ∂μ := fun j => by
    rw [integral_eq_lintegral_of_nonneg_ae (ae_of_all _ fun s => hF0 _) (hY j).aestronglyMeasurable]
  refine sum_second_moment (μ := μ) (g := fun j s => Y j s - p) (fun j => (hY j).sub_const p) (fun j s => ?_)
    (b := fun j => 2 * b j) (fun j => by have := hb j; linarith) (fun j hj i hi => ?_) k
  · rw [Real.norm_eq_abs, abs_le]
    have h1 := hF0 ((Hs j s).1 j).1
    have h2 := hF1 ((Hs j s).1 j).1
    constructor <;> simp only [Y] <;> linarith
  · have hFm : Measurable fun y => ENNReal.ofReal (F y) := hF.ennreal_ofReal
    have h1 := h j hj (fun h => ENNReal.ofReal (F (h i).1))
      (hFm.comp (measurable_fst.comp (measurable_pi_apply i))) (fun h => ENNReal.ofReal_le_one.2 (hF1 _))
      (fun h h' hag => by rw [hag i hi]) _ hFm fun y => ENNReal.ofReal_le_one.2 (hF1 y)
    have h2 := h j hj (fun h => 1) measurable_const (fun h => le_rfl)
      (fun h h' hag => rfl) _ hFm fun y => ENNReal.ofReal_le_one.2 (hF1 y)
    have hst : ∀ s, (Hs (j - K) s).1 i = (Hs i s).1 i := fun s => histAfter_stable hi s
    simp only [hst, hpl] at h1
    rw [show ∫⁻ s, ENNReal.ofReal (F ((Hs i s).1 i).1) * ENNReal.ofReal (F ((Hs j s).1 j).1) ∂μ =
      ∫⁻ s, ENNReal.ofReal (Y i s * Y j s) ∂μ from lintegral_congr fun s => (ENNReal.ofReal_mul (hF0 _)).symm,
      ← integral_eq_lintegral_of_nonneg_ae (ae_of_all _ fun s => mul_nonneg (hF0 _) (hF0 _))
        (hYY i j).aestronglyMeasurable, hYl i] at h1
    simp only [one_mul, lintegral_const, measure_univ, mul_one, ENNReal.toReal_one, hpl] at h2
    rw [hYl j] at h2
    have e1 : ∫ s, (Y i s - p) * (Y j s - p) ∂μ =
        (∫ s, Y i s * Y j s ∂μ - p * ∫ s, Y i s ∂μ) - p * (∫ s, Y j s ∂μ - p) := by
      have : ∀ s, (Y i s - p) * (Y j s - p) = (Y i s * Y j s - p * Y i s) - (p * Y j s - p * p) := fun s => by ring
      simp only [this]
      have i1 : Integrable (fun s => Y i s * Y j s - p * Y i s) μ := (hYY i j).sub ((hYi i).const_mul p)
      have i2 : Integrable (fun s => p * Y j s - p * p) μ := ((hYi j).const_mul p).sub (integrable_const _)
      rw [integral_sub i1 i2,
        integral_sub (hYY i j) ((hYi i).const_mul p), integral_sub ((hYi j).const_mul p) (integrable_const _),
        integral_const_mul, integral_const_mul]
      simp
      ring
    change ∫ s, (Y i s - p) * (Y j s - p) ∂μ ≤ _
    rw [e1]
    have h3 := (abs_le.1 h1).2
    have h4 : |p * (∫ s, Y j s ∂μ - p)| ≤ b j := by
      rw [abs_mul, abs_of_nonneg hp0]
      calc p * |∫ s, Y j s ∂μ - p| ≤ 1 * |∫ s, Y j s ∂μ - p| := by gcongr
        _ = |∫ s, Y j s ∂μ - p| := one_mul _
        _ ≤ b j := h2
    have h5 := (abs_le.1 h4).1
    linarith

/-- The second moment of the sums along an adaptive run. -/
theorem process_moment (D : IdealRng G n μ) {lp : (Fin n → ℝ) → Option ℝ} {ds : List ℝ} {ntry : ℤ}
    (hd : Measurable fun x => (pointAt lp x).density) (h0 : ∀ d ∈ ds, d ≠ 0) (hnt : ntry ≤ 2)
    {M : ℝ} (hM : ∀ y, (pointAt lp y).density ≤ M) {a b : Fin n → ℝ}
    (hbox : ∀ x, lp x ≠ none → ∀ i, a i ≤ x i ∧ x i ≤ b i) (hne : ∃ x, lp x ≠ none)
    {π : Measure (Fin n → ℝ)} [IsProbabilityMeasure π] {Z : ℝ≥0∞} (hZ0 : Z ≠ 0) (hZt : Z ≠ ⊤)
    (hπ : π = Z⁻¹ • (volume.withDensity fun x => ENNReal.ofReal (pointAt lp x).density))
    {L : Lapack XR} (hL : TriangularFactor L n) {adaptint : ℤ} (hai : 0 < adaptint) (adj : ℝ) {sc : ℝ} (hsc : 0 < sc)
    {e c : ℝ} (he : 0 < e) (hc : 0 < c) :
    ∃ K J : ℕ, K ≤ J ∧ ∀ (Q : Matrix (Fin n) (Fin n) ℝ) (R0 : Fin n → Fin n → ℝ) (x : Fin n → ℝ), lp x ≠ none →
      ∀ k : ℕ, ∀ F : (Fin n → ℝ) → ℝ, Measurable F → (∀ y, 0 ≤ F y) → (∀ y, F y ≤ 1) →
      ∫ s, (∑ j ∈ Finset.range k, (F ((histAfter (factorMove D lp ds ntry) (nextFactor hL adaptint (fun _ => false) Q
          adj sc) x R0 j s).1 j).1 - ∫ y, F y ∂π)) ^ 2 ∂μ ≤
        k * (1 + 2 * K + 2 * J) + 2 * k * ∑ j ∈ Finset.Ico J k, 2 * (e + μ.real {s | ¬ ∀ w, c * ∑ i, w i ^ 2 ≤
          w ⬝ᵥ (histCov (j - K) (histAfter (factorMove D lp ds ntry)
          (nextFactor hL adaptint (fun _ => false) Q adj sc) x R0 (j - K) s).1 *ᵥ w)}) := by
  obtain ⟨K, J, hKJ, h⟩ := process_weighted D hd h0 hnt hM hbox hne hZ0 hZt hπ hL hai adj hsc he hc
  refine ⟨K, J, hKJ, fun Q R0 x hx k F hF hF0 hF1 => ?_⟩
  exact moment_of_weighted (measurable_factorMove D hd ds ntry) (fresh_factorMove D hd h0 ntry)
    (measurable_nextFactor _ _ _ _ _ _) x R0 (fun j => add_nonneg he.le measureReal_nonneg) (h Q R0 x hx) k F hF hF0 hF1

end process

end Verif
