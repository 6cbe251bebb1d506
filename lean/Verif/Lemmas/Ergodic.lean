import Verif.Lemmas.JointMove
import Mathlib.MeasureTheory.Measure.Sub
import Mathlib.MeasureTheory.Integral.Prod
import Mathlib.Analysis.SpecificLimits.Basic
import Mathlib.MeasureTheory.Integral.Bochner.Basic

/-! # Convergence of a chain with a lower bound for its transitions -/

namespace Verif
open MeasureTheory Function
open scoped ENNReal

variable {X σ : Type} [MeasurableSpace X] [MeasurableSpace σ] {μ : Measure σ} [IsProbabilityMeasure μ]
  {T : X × σ → X × σ}

section expect

/-- expectation of `f` after `j` steps from `x` -/
noncomputable def expect (μ : Measure σ) (T : X × σ → X × σ) (j : ℕ) (f : X → ℝ≥0∞) (x : X) : ℝ≥0∞ :=
  ∫⁻ s, f (T^[j] (x, s)).1 ∂μ

theorem Fresh.measurable_row (hT : Fresh μ T) (j : ℕ) (x : X) : Measurable fun s => (T^[j] (x, s)).1 :=
  measurable_fst.comp ((hT.iterate j).measurable.comp (measurable_const.prodMk measurable_id))

theorem measurable_expect (hT : Fresh μ T) (j : ℕ) {f : X → ℝ≥0∞} (hf : Measurable f) :
    Measurable (expect μ T j f) :=
  Measurable.lintegral_prod_right' (f := fun p : X × σ => f (T^[j] p).1)
    (hf.comp (measurable_fst.comp (hT.iterate j).measurable))

theorem expect_add (hT : Fresh μ T) (i j : ℕ) {f : X → ℝ≥0∞} (hf : Measurable f) (x : X) :
    expect μ T (i + j) f x = expect μ T i (expect μ T j f) x := by
  unfold expect
  have h := (hT.iterate i).indep x (fun p => f (T^[j] p).1)
    (hf.comp (measurable_fst.comp (hT.iterate j).measurable))
  rw [← h]
  simp only [← iterate_add_apply, Nat.add_comm j i]

theorem expect_le_one {f : X → ℝ≥0∞} (hf : ∀ x, f x ≤ 1) (j : ℕ) (x : X) : expect μ T j f x ≤ 1 := by
  calc expect μ T j f x ≤ ∫⁻ _, 1 ∂μ := lintegral_mono fun s => hf _
    _ = 1 := by simp

theorem expect_stationary (hT : Fresh μ T) {π : Measure X} [SFinite π]
    (hπ : MeasurePreserving T (π.prod μ) (π.prod μ)) (j : ℕ) {f : X → ℝ≥0∞} (hf : Measurable f) :
    ∫⁻ x, expect μ T j f x ∂π = ∫⁻ x, f x ∂π := by
  have h1 : Measurable fun p : X × σ => f (T^[j] p).1 :=
    hf.comp (measurable_fst.comp (hT.iterate j).measurable)
  have h3 : Measurable fun p : X × σ => f p.1 := hf.comp measurable_fst
  have h2 := (hπ.iterate j).lintegral_comp h3
  rw [lintegral_prod _ h1.aemeasurable, lintegral_prod _ h3.aemeasurable] at h2
  simpa [expect] using h2

/-- The steps from points of `S` stay in `S`. -/
theorem keeps_iterate (hT : Fresh μ T) {S : Set X} (hS : MeasurableSet S)
    (keep : ∀ x ∈ S, ∀ᵐ s ∂μ, (T (x, s)).1 ∈ S) (j : ℕ) :
    ∀ x ∈ S, ∀ᵐ s ∂μ, (T^[j] (x, s)).1 ∈ S := by
  have key : ∀ j, ∀ x ∈ S, expect μ T j (Sᶜ.indicator 1) x = 0 := by
    intro j
    induction j with
    | zero => intro x hx; simp [expect, hx]
    | succ j ih =>
      intro x hx
      rw [Nat.add_comm, expect_add hT 1 j (measurable_one.indicator hS.compl)]
      unfold expect
      rw [lintegral_eq_zero_iff' ?_]
      · filter_upwards [keep x hx] with s hs
        exact ih _ hs
      · exact ((measurable_expect hT j (measurable_one.indicator hS.compl)).comp
          (hT.measurable_row 1 x)).aemeasurable
  intro x hx
  have h := key j x hx
  unfold expect at h
  have hm : Measurable fun s => Sᶜ.indicator (1 : X → ℝ≥0∞) (T^[j] (x, s)).1 :=
    (measurable_one.indicator hS.compl).comp (hT.measurable_row j x)
  rw [lintegral_eq_zero_iff' hm.aemeasurable] at h
  filter_upwards [h] with s hs
  by_contra hn
  simp [hn] at hs

end expect

section doeblin

/-- After `d` steps from any point of `S` the law is at least `ε` times `ν`. -/
structure Doeblin (μ : Measure σ) (T : X × σ → X × σ) (S : Set X) (d : ℕ) (ε : ℝ≥0∞) (ν : Measure X) :
    Prop where
  fresh : Fresh μ T
  set : MeasurableSet S
  keep : ∀ x ∈ S, ∀ᵐ s ∂μ, (T (x, s)).1 ∈ S
  dpos : 0 < d
  prob : IsProbabilityMeasure ν
  εle : ε ≤ 1
  lower : ∀ x ∈ S, ∀ B, MeasurableSet B → ε * ν B ≤ μ {s | (T^[d] (x, s)).1 ∈ B}

variable {S : Set X} {d : ℕ} {ε : ℝ≥0∞} {ν : Measure X}

theorem Doeblin.split (H : Doeblin μ T S d ε ν) {x : X} (hx : x ∈ S) :
    ∃ ρ : Measure X, ρ Set.univ = 1 - ε ∧ ρ Sᶜ = 0 ∧ ∀ h : X → ℝ≥0∞, Measurable h →
      expect μ T d h x = ε * ∫⁻ y, h y ∂ν + ∫⁻ y, h y ∂ρ := by
  have := H.prob
  have hrow := H.fresh.measurable_row d x
  set P := Measure.map (fun s => (T^[d] (x, s)).1) μ with hP
  have : IsProbabilityMeasure P := Measure.isProbabilityMeasure_map hrow.aemeasurable
  have hεt : ε ≠ ⊤ := ne_top_of_le_ne_top ENNReal.one_ne_top H.εle
  have hfin : IsFiniteMeasure (ε • ν) := ⟨by
    rw [Measure.smul_apply, measure_univ, smul_eq_mul, mul_one]; exact lt_top_iff_ne_top.2 hεt⟩
  have hle : ε • ν ≤ P := by
    refine Measure.le_iff.2 fun B hB => ?_
    rw [hP, Measure.map_apply hrow hB, Measure.smul_apply, smul_eq_mul]
    exact H.lower x hx B hB
  have hsum : P - ε • ν + ε • ν = P := Measure.sub_add_cancel_of_le hle
  refine ⟨P - ε • ν, ?_, ?_, fun h hh => ?_⟩
  · rw [Measure.sub_apply MeasurableSet.univ hle, measure_univ, Measure.smul_apply, measure_univ, smul_eq_mul,
      mul_one]
  · have h0 : P Sᶜ = 0 := by
      rw [hP, Measure.map_apply hrow H.set.compl]
      have := keeps_iterate H.fresh H.set H.keep d x hx
      exact this
    exact le_antisymm (h0 ▸ (Measure.sub_le (μ := P) (ν := ε • ν)) Sᶜ) bot_le
  · have e : expect μ T d h x = ∫⁻ y, h y ∂P := by rw [hP, lintegral_map hh hrow]; rfl
    rw [e]
    conv_lhs => rw [← hsum]
    rw [lintegral_add_measure, lintegral_smul_measure, add_comm]
    rfl

theorem Doeblin.bounds (H : Doeblin μ T S d ε ν) {f : X → ℝ≥0∞} (hf : Measurable f) (hf1 : ∀ x, f x ≤ 1) (j : ℕ) :
    ∃ a b : ℝ≥0∞, b ≤ a + (1 - ε) ^ (j / d) ∧ b ≤ 1 ∧ ∀ x ∈ S, a ≤ expect μ T j f x ∧ expect μ T j f x ≤ b := by
  have := H.prob
  induction j using Nat.strong_induction_on with
  | _ j ih =>
    by_cases hj : j < d
    · refine ⟨0, 1, ?_, le_rfl, fun x _ => ⟨zero_le, expect_le_one hf1 j x⟩⟩
      rw [Nat.div_eq_of_lt hj, pow_zero, zero_add]
    · obtain ⟨a, b, hab, hb1, h⟩ := ih (j - d) (by have := H.dpos; omega)
      have hm := measurable_expect H.fresh (j - d) hf
      set I := ∫⁻ y, expect μ T (j - d) f y ∂ν with hI
      have hI1 : I ≤ 1 := by
        calc I ≤ ∫⁻ _, 1 ∂ν := lintegral_mono fun y => expect_le_one hf1 _ y
          _ = 1 := by simp
      refine ⟨ε * I + (1 - ε) * a, ε * I + (1 - ε) * b, ?_, ?_, fun x hx => ?_⟩
      · have hdiv : j / d = (j - d) / d + 1 := by
          rw [Nat.div_eq_sub_div H.dpos (not_lt.1 hj)]
        rw [hdiv, pow_succ', add_assoc, ← mul_add]
        gcongr
      · calc ε * I + (1 - ε) * b ≤ ε * 1 + (1 - ε) * 1 := by gcongr
          _ = 1 := by rw [mul_one, mul_one, add_tsub_cancel_of_le H.εle]
      · obtain ⟨ρ, hρ1, hρ2, hρ3⟩ := H.split hx
        have e : expect μ T j f x = expect μ T d (expect μ T (j - d) f) x := by
          rw [← expect_add H.fresh d (j - d) hf, Nat.add_sub_cancel' (not_lt.1 hj)]
        have hae : ∀ᵐ y ∂ρ, y ∈ S := hρ2
        rw [e, hρ3 _ hm]
        constructor
        · gcongr
          calc (1 - ε) * a = ∫⁻ _, a ∂ρ := by rw [lintegral_const, hρ1, mul_comm]
            _ ≤ _ := lintegral_mono_ae (hae.mono fun y hy => (h y hy).1)
        · gcongr
          calc ∫⁻ y, expect μ T (j - d) f y ∂ρ ≤ ∫⁻ _, b ∂ρ := lintegral_mono_ae (hae.mono fun y hy => (h y hy).2)
            _ = (1 - ε) * b := by rw [lintegral_const, hρ1, mul_comm]

variable {π : Measure X} [IsProbabilityMeasure π]

/-- The expectations after `j` steps approach the stationary ones geometrically. -/
theorem Doeblin.expect_near (H : Doeblin μ T S d ε ν) (hπ : MeasurePreserving T (π.prod μ) (π.prod μ))
    (hπS : π Sᶜ = 0) {f : X → ℝ≥0∞} (hf : Measurable f) (hf1 : ∀ x, f x ≤ 1) (j : ℕ) {x : X} (hx : x ∈ S) :
    |(expect μ T j f x).toReal - (∫⁻ y, f y ∂π).toReal| ≤ (1 - ε.toReal) ^ (j / d) := by
  obtain ⟨a, b, hab, hb1, h⟩ := H.bounds hf hf1 j
  have hae : ∀ᵐ y ∂π, y ∈ S := hπS
  have h1 : a ≤ ∫⁻ y, f y ∂π := by
    rw [← expect_stationary H.fresh hπ j hf]
    calc a = ∫⁻ _, a ∂π := by simp
      _ ≤ _ := lintegral_mono_ae (hae.mono fun y hy => (h y hy).1)
  have h2 : ∫⁻ y, f y ∂π ≤ b := by
    rw [← expect_stationary H.fresh hπ j hf]
    calc _ ≤ ∫⁻ _, b ∂π := lintegral_mono_ae (hae.mono fun y hy => (h y hy).2)
      _ = b := by simp
  have hbt : b ≠ ⊤ := ne_top_of_le_ne_top ENNReal.one_ne_top hb1
  have hat : a ≠ ⊤ := ne_top_of_le_ne_top hbt ((h x hx).1.trans (h x hx).2)
  have hpt : (1 - ε) ^ (j / d) ≠ ⊤ := ENNReal.pow_ne_top (ne_top_of_le_ne_top ENNReal.one_ne_top tsub_le_self)
  have k1 := ENNReal.toReal_mono (ne_top_of_le_ne_top hbt (h x hx).2) (h x hx).1
  have k2 := ENNReal.toReal_mono hbt (h x hx).2
  have k3 := ENNReal.toReal_mono (ne_top_of_le_ne_top hbt h2) h1
  have k4 := ENNReal.toReal_mono hbt h2
  have k5 := ENNReal.toReal_mono (ENNReal.add_ne_top.2 ⟨hat, hpt⟩) hab
  rw [ENNReal.toReal_add hat hpt, ENNReal.toReal_pow, ENNReal.toReal_sub_of_le H.εle ENNReal.one_ne_top,
    ENNReal.toReal_one] at k5
  rw [abs_le]
  constructor <;> linarith

/-- **Convergence.** The law of the chain after `j` steps differs from the stationary one by at most
`(1 - ε)^(j/d)`, uniformly over events and starts. -/
theorem Doeblin.converges (H : Doeblin μ T S d ε ν) (hπ : MeasurePreserving T (π.prod μ) (π.prod μ))
    (hπS : π Sᶜ = 0) {B : Set X} (hB : MeasurableSet B) (j : ℕ) {x : X} (hx : x ∈ S) :
    |μ.real {s | (T^[j] (x, s)).1 ∈ B} - π.real B| ≤ (1 - ε.toReal) ^ (j / d) := by
  have h := H.expect_near hπ hπS (f := B.indicator 1) (measurable_one.indicator hB)
    (fun x => Set.indicator_le_self' (fun _ _ => zero_le) x) j hx
  have e1 : expect μ T j (B.indicator 1) x = μ {s | (T^[j] (x, s)).1 ∈ B} := by
    unfold expect
    have : (fun s => B.indicator (1 : X → ℝ≥0∞) (T^[j] (x, s)).1) =
        ({s | (T^[j] (x, s)).1 ∈ B} : Set σ).indicator 1 := rfl
    have hm : MeasurableSet {s | (T^[j] (x, s)).1 ∈ B} := H.fresh.measurable_row j x hB
    rw [this, lintegral_indicator_one hm]
  rw [e1, lintegral_indicator_one hB] at h
  exact h

end doeblin

section average
variable {S : Set X} {d : ℕ} {ε : ℝ≥0∞} {ν : Measure X} {π : Measure X} [IsProbabilityMeasure π]

theorem Fresh.map_eq (hT : Fresh μ T) (x : X) : Measure.map (fun s => T (x, s)) μ =
    (Measure.map (fun s => (T (x, s)).1) μ).prod μ := by
  have h1 : Measurable fun s => T (x, s) := hT.measurable.comp (measurable_const.prodMk measurable_id)
  have h2 : Measurable fun s => (T (x, s)).1 := measurable_fst.comp h1
  refine Measure.ext_of_lintegral _ fun g hg => ?_
  rw [lintegral_map hg h1, lintegral_prod _ hg.aemeasurable, lintegral_map hg.lintegral_prod_right' h2]
  exact hT.indep x g hg

theorem sum_pow_div_le {δ : ℝ} (h0 : 0 ≤ δ) (h1 : δ < 1) (hd : 0 < d) (k : ℕ) :
    ∑ m ∈ Finset.range k, δ ^ (m / d) ≤ d / (1 - δ) := by
  have hpos : 0 < 1 - δ := by linarith
  induction k using Nat.strong_induction_on with
  | _ k ih =>
    by_cases hk : k ≤ d
    · calc ∑ m ∈ Finset.range k, δ ^ (m / d) = ∑ m ∈ Finset.range k, (1 : ℝ) := by
            refine Finset.sum_congr rfl fun m hm => ?_
            rw [Nat.div_eq_of_lt (by have := Finset.mem_range.1 hm; omega), pow_zero]
        _ = k := by simp
        _ ≤ d := by exact_mod_cast hk
        _ ≤ d / (1 - δ) := by
            rw [le_div_iff₀ hpos]
            nlinarith [Nat.cast_nonneg (α := ℝ) d]
    · have hk' : k = d + (k - d) := by omega
      rw [hk', Finset.sum_range_add]
      have e1 : ∑ m ∈ Finset.range d, δ ^ (m / d) = d := by
        rw [Finset.sum_congr rfl fun m hm => by rw [Nat.div_eq_of_lt (Finset.mem_range.1 hm), pow_zero]]
        simp
      have e2 : ∑ m ∈ Finset.range (k - d), δ ^ ((d + m) / d) = δ * ∑ m ∈ Finset.range (k - d), δ ^ (m / d) := by
        rw [Finset.mul_sum]
        refine Finset.sum_congr rfl fun m _ => ?_
        rw [Nat.add_div_left _ hd, pow_succ']
      rw [e1, e2]
      have := ih (k - d) (by omega)
      calc (d : ℝ) + δ * ∑ m ∈ Finset.range (k - d), δ ^ (m / d) ≤ d + δ * (d / (1 - δ)) := by gcongr
        _ = d / (1 - δ) := by field_simp; ring

theorem Doeblin.integral_near (H : Doeblin μ T S d ε ν) (hπ : MeasurePreserving T (π.prod μ) (π.prod μ))
    (hπS : π Sᶜ = 0) {f : X → ℝ} (hf : Measurable f) (h0 : ∀ x, 0 ≤ f x) (h1 : ∀ x, f x ≤ 1) (j : ℕ)
    {x : X} (hx : x ∈ S) :
    |∫ s, f (T^[j] (x, s)).1 ∂μ - ∫ y, f y ∂π| ≤ (1 - ε.toReal) ^ (j / d) := by
  have h := H.expect_near hπ hπS (f := fun y => ENNReal.ofReal (f y)) hf.ennreal_ofReal
    (fun y => by rw [← ENNReal.ofReal_one]; exact ENNReal.ofReal_le_ofReal (h1 y)) j hx
  rw [integral_eq_lintegral_of_nonneg_ae (ae_of_all _ fun s => h0 _)
      (hf.comp (H.fresh.measurable_row j x)).aestronglyMeasurable,
    integral_eq_lintegral_of_nonneg_ae (ae_of_all _ h0) hf.aestronglyMeasurable]
  exact h

/-- Values `m` steps apart are almost uncorrelated. -/
theorem Doeblin.correlation (H : Doeblin μ T S d ε ν) (hπ : MeasurePreserving T (π.prod μ) (π.prod μ))
    (hπS : π Sᶜ = 0) {f : X → ℝ} (hf : Measurable f) (h0 : ∀ x, 0 ≤ f x) (h1 : ∀ x, f x ≤ 1) (i m : ℕ)
    {x : X} (hx : x ∈ S) :
    |∫ s, (f (T^[i] (x, s)).1 - ∫ y, f y ∂π) * (f (T^[i + m] (x, s)).1 - ∫ y, f y ∂π) ∂μ| ≤
      (1 - ε.toReal) ^ (m / d) := by
  set p := ∫ y, f y ∂π with hp
  have hint : Integrable f π := Integrable.of_bound hf.aestronglyMeasurable 1
    (ae_of_all _ fun y => by rw [Real.norm_eq_abs, abs_of_nonneg (h0 y)]; exact h1 y)
  have hp0 : 0 ≤ p := integral_nonneg h0
  have hp1 : p ≤ 1 := by
    calc p ≤ ∫ _, (1 : ℝ) ∂π := integral_mono hint (integrable_const _) h1
      _ = 1 := by simp
  have hab : ∀ y, |f y - p| ≤ 1 := fun y => by
    rw [abs_le]; constructor <;> linarith [h0 y, h1 y]
  let g : X × σ → ℝ := fun z => (f z.1 - p) * (f (T^[m] z).1 - p)
  have hg : Measurable g := ((hf.comp measurable_fst).sub_const p).mul
    ((hf.comp (measurable_fst.comp (H.fresh.iterate m).measurable)).sub_const p)
  have hgb : ∀ z, ‖g z‖ ≤ 1 := fun z => by
    rw [Real.norm_eq_abs, abs_mul]
    exact mul_le_one₀ (hab _) (abs_nonneg _) (hab _)
  have hTi : Measurable fun s => T^[i] (x, s) :=
    (H.fresh.iterate i).measurable.comp (measurable_const.prodMk measurable_id)
  have hrow := H.fresh.measurable_row i x
  have : IsProbabilityMeasure (Measure.map (fun s => (T^[i] (x, s)).1) μ) :=
    Measure.isProbabilityMeasure_map hrow.aemeasurable
  have e1 : ∫ s, (f (T^[i] (x, s)).1 - p) * (f (T^[i + m] (x, s)).1 - p) ∂μ =
      ∫ y, (f y - p) * (∫ s, f (T^[m] (y, s)).1 ∂μ - p) ∂(Measure.map (fun s => (T^[i] (x, s)).1) μ) := by
    have a1 : ∫ s, (f (T^[i] (x, s)).1 - p) * (f (T^[i + m] (x, s)).1 - p) ∂μ =
        ∫ z, g z ∂(Measure.map (fun s => T^[i] (x, s)) μ) := by
      rw [integral_map hTi.aemeasurable hg.aestronglyMeasurable]
      simp only [g, ← iterate_add_apply, Nat.add_comm m i]
    rw [a1, (H.fresh.iterate i).map_eq x, integral_prod _ (Integrable.of_bound hg.aestronglyMeasurable 1
      (ae_of_all _ hgb))]
    refine integral_congr_ae (ae_of_all _ fun y => ?_)
    simp only [g]
    have hm : Measurable fun s => f (T^[m] (y, s)).1 := hf.comp (H.fresh.measurable_row m y)
    rw [integral_const_mul, integral_sub (Integrable.of_bound hm.aestronglyMeasurable 1
      (ae_of_all _ fun s => by rw [Real.norm_eq_abs, abs_of_nonneg (h0 _)]; exact h1 _)) (integrable_const _)]
    simp
  rw [e1, ← Real.norm_eq_abs]
  refine (norm_integral_le_of_norm_le_const (C := (1 - ε.toReal) ^ (m / d)) ?_).trans (by simp)
  have hae : ∀ᵐ y ∂(Measure.map (fun s => (T^[i] (x, s)).1) μ), y ∈ S :=
    (ae_map_iff hrow.aemeasurable H.set).2 (keeps_iterate H.fresh H.set H.keep i x hx)
  filter_upwards [hae] with y hy
  rw [Real.norm_eq_abs, abs_mul]
  calc |f y - p| * |∫ s, f (T^[m] (y, s)).1 ∂μ - p| ≤ 1 * (1 - ε.toReal) ^ (m / d) :=
        mul_le_mul (hab y) (H.integral_near hπ hπS hf h0 h1 m hy) (abs_nonneg _) zero_le_one
    _ = _ := one_mul _

theorem Doeblin.second_moment (H : Doeblin μ T S d ε ν) (hε : 0 < ε) (hπ : MeasurePreserving T (π.prod μ) (π.prod μ))
    (hπS : π Sᶜ = 0) {f : X → ℝ} (hf : Measurable f) (h0 : ∀ x, 0 ≤ f x) (h1 : ∀ x, f x ≤ 1) (k : ℕ)
    {x : X} (hx : x ∈ S) :
    ∫ s, (∑ j ∈ Finset.range k, (f (T^[j] (x, s)).1 - ∫ y, f y ∂π)) ^ 2 ∂μ ≤ k * (2 * (d / ε.toReal)) := by
  set p := ∫ y, f y ∂π with hp
  have hint : Integrable f π := Integrable.of_bound hf.aestronglyMeasurable 1
    (ae_of_all _ fun y => by rw [Real.norm_eq_abs, abs_of_nonneg (h0 y)]; exact h1 y)
  have hp0 : 0 ≤ p := integral_nonneg h0
  have hp1 : p ≤ 1 := by
    calc p ≤ ∫ _, (1 : ℝ) ∂π := integral_mono hint (integrable_const _) h1
      _ = 1 := by simp
  have hεt : ε ≠ ⊤ := ne_top_of_le_ne_top ENNReal.one_ne_top H.εle
  have hε0 : 0 < ε.toReal := ENNReal.toReal_pos hε.ne' hεt
  have hε1 : ε.toReal ≤ 1 := by
    have := ENNReal.toReal_mono ENNReal.one_ne_top H.εle
    simpa using this
  let g : ℕ → σ → ℝ := fun j s => f (T^[j] (x, s)).1 - p
  have hg : ∀ j, Measurable (g j) := fun j => (hf.comp (H.fresh.measurable_row j x)).sub_const p
  have hgb : ∀ j s, ‖g j s‖ ≤ 1 := fun j s => by
    rw [Real.norm_eq_abs, abs_le]
    constructor <;> simp only [g] <;> linarith [h0 (T^[j] (x, s)).1, h1 (T^[j] (x, s)).1]
  have hgi : ∀ i j, Integrable (fun s => g i s * g j s) μ := fun i j =>
    Integrable.of_bound ((hg i).mul (hg j)).aestronglyMeasurable 1 (ae_of_all _ fun s => by
      rw [norm_mul]; exact mul_le_one₀ (hgb i s) (norm_nonneg _) (hgb j s))
  have hSi : ∀ k, Integrable (fun s => (∑ j ∈ Finset.range k, g j s) ^ 2) μ := by
    intro k
    simp only [pow_two, Finset.sum_mul_sum]
    exact integrable_finsetSum _ fun i _ => integrable_finsetSum _ fun j _ => hgi i j
  have hSg : ∀ k, Integrable (fun s => (∑ j ∈ Finset.range k, g j s) * g k s) μ := by
    intro k
    simp only [Finset.sum_mul]
    exact integrable_finsetSum _ fun i _ => hgi i k
  change ∫ s, (∑ j ∈ Finset.range k, g j s) ^ 2 ∂μ ≤ _
  induction k with
  | zero => simp
  | succ k ih =>
    have e : ∀ s, (∑ j ∈ Finset.range (k + 1), g j s) ^ 2 =
        (∑ j ∈ Finset.range k, g j s) ^ 2 + (2 * ((∑ j ∈ Finset.range k, g j s) * g k s) + g k s * g k s) := by
      intro s
      rw [Finset.sum_range_succ]; ring
    simp only [e]
    have hcor : ∀ i m, ∫ s, g i s * g (i + m) s ∂μ ≤ (1 - ε.toReal) ^ (m / d) := fun i m =>
      (le_abs_self _).trans (H.correlation hπ hπS hf h0 h1 i m hx)
    have hadd : Integrable (fun s => 2 * ((∑ j ∈ Finset.range k, g j s) * g k s) + g k s * g k s) μ :=
      ((hSg k).const_mul 2).add (hgi k k)
    rw [integral_add (hSi k) hadd, integral_add ((hSg k).const_mul 2) (hgi k k), integral_const_mul]
    have hsum : ∫ s, (∑ j ∈ Finset.range k, g j s) * g k s ∂μ ≤
        ∑ m ∈ Finset.range k, (1 - ε.toReal) ^ ((m + 1) / d) := by
      simp only [Finset.sum_mul]
      rw [integral_finsetSum _ fun i _ => hgi i k,
        ← Finset.sum_range_reflect (fun m => (1 - ε.toReal) ^ ((m + 1) / d))]
      refine Finset.sum_le_sum fun i hi => ?_
      have hik := Finset.mem_range.1 hi
      have := hcor i (k - i)
      rw [Nat.add_sub_cancel' hik.le] at this
      rw [show k - 1 - i + 1 = k - i by omega]
      exact this
    have hdiag := hcor k 0
    rw [Nat.zero_div, pow_zero, Nat.add_zero] at hdiag
    have hgeom := sum_pow_div_le (δ := 1 - ε.toReal) (by linarith) (by linarith) H.dpos (k + 1)
    rw [Finset.sum_range_succ', Nat.zero_div, pow_zero, sub_sub_cancel] at hgeom
    push_cast
    linarith

/-- **Averages.** The average of a bounded function along the chain is close to its stationary mean. -/
theorem Doeblin.average (H : Doeblin μ T S d ε ν) (hε : 0 < ε) (hπ : MeasurePreserving T (π.prod μ) (π.prod μ))
    (hπS : π Sᶜ = 0) {f : X → ℝ} (hf : Measurable f) {c : ℝ} (hc : 0 < c) (hfc : ∀ x ∈ S, |f x| ≤ c)
    {k : ℕ} (hk : 0 < k) {η : ℝ} (hη : 0 < η) {x : X} (hx : x ∈ S) :
    μ.real {s | η ≤ |(∑ j ∈ Finset.range k, f (T^[j] (x, s)).1) / k - ∫ y, f y ∂π|} ≤
      8 * c ^ 2 * d / (ε.toReal * k * η ^ 2) := by
  -- the function brought to the unit interval
  let F : X → ℝ := fun y => (max (-c) (min c (f y)) + c) / (2 * c)
  have hF : Measurable F := ((measurable_const.max (measurable_const.min hf)).add_const c).div_const _
  have hF0 : ∀ y, 0 ≤ F y := fun y => div_nonneg (by linarith [le_max_left (-c) (min c (f y))]) (by linarith)
  have hF1 : ∀ y, F y ≤ 1 := fun y => by
    rw [div_le_one (by linarith)]
    have : max (-c) (min c (f y)) ≤ c := max_le (by linarith) (min_le_left _ _)
    linarith
  have hFf : ∀ y ∈ S, f y = 2 * c * F y - c := by
    intro y hy
    have := abs_le.1 (hfc y hy)
    simp only [F]
    rw [min_eq_right this.2, max_eq_right this.1]
    field_simp
    ring
  have hFi : Integrable F π := Integrable.of_bound hF.aestronglyMeasurable 1
    (ae_of_all _ fun y => by rw [Real.norm_eq_abs, abs_of_nonneg (hF0 y)]; exact hF1 y)
  have haeπ : ∀ᵐ y ∂π, y ∈ S := hπS
  have hπf : ∫ y, f y ∂π = 2 * c * ∫ y, F y ∂π - c := by
    rw [integral_congr_ae (haeπ.mono hFf), integral_sub (hFi.const_mul _) (integrable_const _), integral_const_mul]
    simp
  have hmom := H.second_moment hε hπ hπS hF hF0 hF1 k hx
  set p := ∫ y, F y ∂π with hp
  have hεt : ε ≠ ⊤ := ne_top_of_le_ne_top ENNReal.one_ne_top H.εle
  have hε0 : 0 < ε.toReal := ENNReal.toReal_pos hε.ne' hεt
  have hk0 : (0 : ℝ) < k := by exact_mod_cast hk
  have hmeas : Measurable fun s => ∑ j ∈ Finset.range k, (F (T^[j] (x, s)).1 - p) :=
    Finset.measurable_sum _ fun j _ => (hF.comp (H.fresh.measurable_row j x)).sub_const p
  have hp0 : 0 ≤ p := integral_nonneg hF0
  have hp1 : p ≤ 1 := by
    calc p ≤ ∫ _, (1 : ℝ) ∂π := integral_mono hFi (integrable_const _) hF1
      _ = 1 := by simp
  have hSi : Integrable (fun s => (∑ j ∈ Finset.range k, (F (T^[j] (x, s)).1 - p)) ^ 2) μ := by
    refine Integrable.of_bound (hmeas.pow_const 2).aestronglyMeasurable ((k : ℝ) ^ 2) (ae_of_all _ fun s => ?_)
    rw [norm_pow]
    gcongr
    refine (norm_sum_le _ _).trans ?_
    calc ∑ j ∈ Finset.range k, ‖F (T^[j] (x, s)).1 - p‖ ≤ ∑ j ∈ Finset.range k, (1 : ℝ) :=
          Finset.sum_le_sum fun j _ => by
            rw [Real.norm_eq_abs, abs_le]
            constructor <;> linarith [hF0 (T^[j] (x, s)).1, hF1 (T^[j] (x, s)).1]
      _ = k := by simp
  have hall : ∀ᵐ s ∂μ, ∀ j, (T^[j] (x, s)).1 ∈ S :=
    ae_all_iff.2 fun j => keeps_iterate H.fresh H.set H.keep j x hx
  set t := (k * η / (2 * c)) ^ 2 with ht
  have ht0 : 0 < t := by positivity
  have hsub : {s | η ≤ |(∑ j ∈ Finset.range k, f (T^[j] (x, s)).1) / k - ∫ y, f y ∂π|} ≤ᵐ[μ]
      {s | t ≤ (∑ j ∈ Finset.range k, (F (T^[j] (x, s)).1 - p)) ^ 2} := by
    filter_upwards [hall] with s hs h
    change η ≤ _ at h
    change t ≤ _
    have e : (∑ j ∈ Finset.range k, f (T^[j] (x, s)).1) / k - ∫ y, f y ∂π =
        2 * c / k * ∑ j ∈ Finset.range k, (F (T^[j] (x, s)).1 - p) := by
      rw [hπf, Finset.sum_congr rfl fun j _ => hFf _ (hs j), Finset.sum_sub_distrib, Finset.sum_sub_distrib,
        ← Finset.mul_sum]
      simp only [Finset.sum_const, Finset.card_range, nsmul_eq_mul]
      field_simp
      ring
    rw [e, abs_mul, abs_of_pos (by positivity)] at h
    rw [ht, ← sq_abs (∑ j ∈ Finset.range k, (F (T^[j] (x, s)).1 - p))]
    refine pow_le_pow_left₀ (by positivity) ?_ 2
    rw [div_le_iff₀ (by positivity)]
    rw [div_mul_eq_mul_div, le_div_iff₀ hk0] at h
    linarith
  have hch := mul_meas_ge_le_integral_of_nonneg (ae_of_all _ fun s => sq_nonneg _) hSi t
  have hle : μ.real {s | η ≤ |(∑ j ∈ Finset.range k, f (T^[j] (x, s)).1) / k - ∫ y, f y ∂π|} ≤
      μ.real {s | t ≤ (∑ j ∈ Finset.range k, (F (T^[j] (x, s)).1 - p)) ^ 2} :=
    ENNReal.toReal_mono (measure_ne_top _ _) (measure_mono_ae hsub)
  refine hle.trans ?_
  rw [le_div_iff₀ (by positivity)]
  have h3 : t * μ.real {s | t ≤ (∑ j ∈ Finset.range k, (F (T^[j] (x, s)).1 - p)) ^ 2} ≤
      k * (2 * (d / ε.toReal)) := hch.trans hmom
  set m := μ.real {s | t ≤ (∑ j ∈ Finset.range k, (F (T^[j] (x, s)).1 - p)) ^ 2}
  have e2 : m * (ε.toReal * k * η ^ 2) = (t * m) * (4 * c ^ 2 * ε.toReal / k) := by
    rw [ht]; field_simp; ring
  rw [e2]
  calc (t * m) * (4 * c ^ 2 * ε.toReal / k) ≤ (k * (2 * (d / ε.toReal))) * (4 * c ^ 2 * ε.toReal / k) := by gcongr
    _ = 8 * c ^ 2 * d := by field_simp; ring

end average

end Verif
