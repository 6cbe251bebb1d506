import Verif.Lemmas.Ergodic
import Mathlib.MeasureTheory.Measure.Decomposition.Lebesgue

/-! # Convergence of a chain whose transitions have a lower bound on bounded sets

Sequence of steps: the variance of the expected value under the stationary law decreases
(`variance_step`), uniformly over all functions with values in `[0, 1]` (`variance_small`); starts whose
law becomes absolutely continuous follow (`Harris.near`); so do averages (`Harris.average`). -/

namespace Verif
open MeasureTheory Function
open scoped ENNReal

variable {X σ : Type} [MeasurableSpace X] [MeasurableSpace σ] {μ : Measure σ} [IsProbabilityMeasure μ]
  {T : X × σ → X × σ}

/-- measurable with values in `[0, 1]` -/
structure UnitFun (f : X → ℝ) : Prop where
  meas : Measurable f
  nonneg : ∀ x, 0 ≤ f x
  le_one : ∀ x, f x ≤ 1

namespace UnitFun
variable {f : X → ℝ}

theorem integrable (h : UnitFun f) (ν : Measure X) [IsFiniteMeasure ν] : Integrable f ν :=
  Integrable.of_bound h.meas.aestronglyMeasurable 1
    (ae_of_all _ fun y => by rw [Real.norm_eq_abs, abs_of_nonneg (h.nonneg y)]; exact h.le_one y)

theorem integral_mem (h : UnitFun f) (ν : Measure X) [IsProbabilityMeasure ν] :
    0 ≤ ∫ y, f y ∂ν ∧ ∫ y, f y ∂ν ≤ 1 := by
  refine ⟨integral_nonneg h.nonneg, ?_⟩
  calc ∫ y, f y ∂ν ≤ ∫ _, (1 : ℝ) ∂ν := integral_mono (h.integrable ν) (integrable_const _) h.le_one
    _ = 1 := by simp

theorem abs_sub (h : UnitFun f) {c : ℝ} (hc : 0 ≤ c ∧ c ≤ 1) : UnitFun fun x => |f x - c| :=
  ⟨(h.meas.sub_const c).abs, fun _ => abs_nonneg _, fun x => by
    rw [abs_le]; constructor <;> linarith [h.nonneg x, h.le_one x]⟩

theorem sq (h : UnitFun f) : UnitFun fun x => f x ^ 2 :=
  ⟨h.meas.pow_const 2, fun x => sq_nonneg _, fun x => pow_le_one₀ (h.nonneg x) (h.le_one x)⟩

theorem sub_sq (h : UnitFun f) {c : ℝ} (hc : 0 ≤ c ∧ c ≤ 1) : UnitFun fun x => (f x - c) ^ 2 := by
  have := (h.abs_sub hc).sq
  simpa only [sq_abs] using this

theorem integral_sub_sq (h : UnitFun f) (ν : Measure X) [IsProbabilityMeasure ν] (d : ℝ) :
    ∫ y, (f y - d) ^ 2 ∂ν = ∫ y, f y ^ 2 ∂ν - 2 * d * ∫ y, f y ∂ν + d ^ 2 := by
  have e : ∀ y, (f y - d) ^ 2 = f y ^ 2 - 2 * d * f y + d ^ 2 := fun y => by ring
  have i1 : Integrable (fun y => f y ^ 2) ν := h.sq.integrable ν
  have i2 : Integrable (fun y => 2 * d * f y) ν := (h.integrable ν).const_mul _
  have i3 : Integrable (fun y => f y ^ 2 - 2 * d * f y) ν := i1.sub i2
  simp only [e]
  rw [integral_add i3 (integrable_const _), integral_sub i1 i2, integral_const_mul]
  simp

end UnitFun

section mean

/-- law of the point reached after `j` steps from `x` -/
noncomputable def lawAt (μ : Measure σ) (T : X × σ → X × σ) (j : ℕ) (x : X) : Measure X :=
  Measure.map (fun s => (T^[j] (x, s)).1) μ

/-- expected value of `f` after `j` steps from `x` -/
noncomputable def meanAt (μ : Measure σ) (T : X × σ → X × σ) (j : ℕ) (f : X → ℝ) (x : X) : ℝ :=
  ∫ s, f (T^[j] (x, s)).1 ∂μ

theorem lawAt_prob (hT : Fresh μ T) (j : ℕ) (x : X) : IsProbabilityMeasure (lawAt μ T j x) :=
  Measure.isProbabilityMeasure_map (hT.measurable_row j x).aemeasurable

theorem meanAt_eq (hT : Fresh μ T) (j : ℕ) {f : X → ℝ} (hf : Measurable f) (x : X) :
    meanAt μ T j f x = ∫ y, f y ∂lawAt μ T j x := by
  unfold meanAt lawAt
  rw [integral_map (hT.measurable_row j x).aemeasurable hf.aestronglyMeasurable]

theorem unitFun_meanAt (hT : Fresh μ T) (j : ℕ) {f : X → ℝ} (hf : UnitFun f) : UnitFun (meanAt μ T j f) := by
  refine ⟨?_, fun x => integral_nonneg fun s => hf.nonneg _, fun x => ?_⟩
  · have h : StronglyMeasurable fun p : X × σ => f (T^[j] p).1 :=
      (hf.meas.comp (measurable_fst.comp (hT.iterate j).measurable)).stronglyMeasurable
    exact h.integral_prod_right'.measurable
  · have := lawAt_prob hT j x
    rw [meanAt_eq hT j hf.meas]
    exact (hf.integral_mem _).2

theorem meanAt_add (hT : Fresh μ T) (i j : ℕ) {f : X → ℝ} (hf : UnitFun f) (x : X) :
    meanAt μ T (i + j) f x = meanAt μ T i (meanAt μ T j f) x := by
  have := lawAt_prob hT i x
  have hTi : Measurable fun s => T^[i] (x, s) :=
    (hT.iterate i).measurable.comp (measurable_const.prodMk measurable_id)
  have hm : Measurable fun p : X × σ => f (T^[j] p).1 :=
    hf.meas.comp (measurable_fst.comp (hT.iterate j).measurable)
  have a1 : meanAt μ T (i + j) f x = ∫ z, f (T^[j] z).1 ∂(Measure.map (fun s => T^[i] (x, s)) μ) := by
    rw [integral_map hTi.aemeasurable hm.aestronglyMeasurable]
    simp only [meanAt, ← iterate_add_apply, Nat.add_comm j i]
  rw [a1, (hT.iterate i).map_eq x]
  change ∫ z, f (T^[j] z).1 ∂(lawAt μ T i x).prod μ = _
  rw [integral_prod _ (Integrable.of_bound hm.aestronglyMeasurable 1 (ae_of_all _ fun z => by
    rw [Real.norm_eq_abs, abs_of_nonneg (hf.nonneg _)]; exact hf.le_one _)),
    meanAt_eq hT i (unitFun_meanAt hT j hf).meas]
  rfl

variable {π : Measure X} [IsProbabilityMeasure π]

theorem meanAt_stationary (hT : Fresh μ T) (hπ : MeasurePreserving T (π.prod μ) (π.prod μ)) (j : ℕ)
    {f : X → ℝ} (hf : UnitFun f) : ∫ x, meanAt μ T j f x ∂π = ∫ x, f x ∂π := by
  have hm : Measurable fun p : X × σ => f (T^[j] p).1 :=
    hf.meas.comp (measurable_fst.comp (hT.iterate j).measurable)
  have hm' : Measurable fun p : X × σ => f p.1 := hf.meas.comp measurable_fst
  have hb : ∀ (g : X × σ → X), ∀ᵐ z ∂(π.prod μ), ‖f (g z)‖ ≤ 1 := fun g => ae_of_all _ fun z => by
    rw [Real.norm_eq_abs, abs_of_nonneg (hf.nonneg _)]; exact hf.le_one _
  have h2 : ∫ z, f z.1 ∂(π.prod μ) = ∫ z, f (T^[j] z).1 ∂(π.prod μ) := by
    conv_lhs => rw [← (hπ.iterate j).map_eq]
    rw [integral_map (hπ.iterate j).measurable.aemeasurable hm'.aestronglyMeasurable]
  rw [integral_prod _ (Integrable.of_bound hm.aestronglyMeasurable 1 (hb _)),
    integral_prod _ (Integrable.of_bound hm'.aestronglyMeasurable 1 (hb _))] at h2
  simp only [integral_const, probReal_univ, smul_eq_mul, one_mul] at h2
  exact h2.symm

/-- On `C` the law after one step is at least `δ` times the stationary law. -/
def LowerOn (μ : Measure σ) (T : X × σ → X × σ) (π : Measure X) (C : Set X) (δ : ℝ≥0∞) : Prop :=
  ∀ x ∈ C, ∀ B, MeasurableSet B → δ * π (B ∩ C) ≤ μ {s | (T (x, s)).1 ∈ B}

/-- One step makes the expected value more equal. -/
theorem variance_step (hT : Fresh μ T) (hπ : MeasurePreserving T (π.prod μ) (π.prod μ)) {C : Set X}
    (hC : MeasurableSet C) {δ : ℝ} (hδ : 0 ≤ δ) (hlow : LowerOn μ T π C (ENNReal.ofReal δ))
    {f : X → ℝ} (hf : UnitFun f) :
    ∫ x, (meanAt μ T 1 f x - ∫ y, f y ∂π) ^ 2 ∂π ≤ ∫ x, (f x - ∫ y, f y ∂π) ^ 2 ∂π -
      δ * π.real C * (∫ x, (f x - ∫ y, f y ∂π) ^ 2 ∂π - π.real Cᶜ) := by
  set p := ∫ y, f y ∂π with hp
  have hp01 := hf.integral_mem π
  set w := ∫ x, (f x - p) ^ 2 ∂π with hw
  have hg := unitFun_meanAt (μ := μ) hT 1 hf
  -- the conditional variance
  have hvar : ∀ x, meanAt μ T 1 (fun y => (f y - p) ^ 2) x - (meanAt μ T 1 f x - p) ^ 2 =
      ∫ y, (f y - meanAt μ T 1 f x) ^ 2 ∂lawAt μ T 1 x := by
    intro x
    have := lawAt_prob hT 1 x
    rw [meanAt_eq hT 1 (hf.sub_sq hp01).meas]
    set c := meanAt μ T 1 f x with hc
    have hc' : ∫ y, f y ∂lawAt μ T 1 x = c := (meanAt_eq hT 1 hf.meas x).symm
    rw [hf.integral_sub_sq, hf.integral_sub_sq, hc']
    ring
  have hpos : ∀ x, 0 ≤ meanAt μ T 1 (fun y => (f y - p) ^ 2) x - (meanAt μ T 1 f x - p) ^ 2 := fun x => by
    rw [hvar]; exact integral_nonneg fun y => sq_nonneg _
  have hbig : ∀ x ∈ C, δ * (w - π.real Cᶜ) ≤
      meanAt μ T 1 (fun y => (f y - p) ^ 2) x - (meanAt μ T 1 f x - p) ^ 2 := by
    intro x hx
    have := lawAt_prob hT 1 x
    rw [hvar]
    set c := meanAt μ T 1 f x with hc
    have hc01 : 0 ≤ c ∧ c ≤ 1 := ⟨hg.nonneg x, hg.le_one x⟩
    have hle : ENNReal.ofReal δ • π.restrict C ≤ lawAt μ T 1 x := by
      refine Measure.le_iff.2 fun B hB => ?_
      unfold lawAt
      rw [Measure.map_apply (hT.measurable_row 1 x) hB, Measure.smul_apply, Measure.restrict_apply hB, smul_eq_mul]
      exact hlow x hx B hB
    have h1 : ∫ y, (f y - c) ^ 2 ∂(ENNReal.ofReal δ • π.restrict C) ≤ ∫ y, (f y - c) ^ 2 ∂lawAt μ T 1 x :=
      integral_mono_measure hle (ae_of_all _ fun y => sq_nonneg _) ((hf.sub_sq hc01).integrable _)
    rw [integral_smul_measure, ENNReal.toReal_ofReal hδ, smul_eq_mul] at h1
    refine le_trans (mul_le_mul_of_nonneg_left ?_ hδ) h1
    have h2 : w ≤ ∫ y, (f y - c) ^ 2 ∂π := by
      rw [hw, hf.integral_sub_sq, hf.integral_sub_sq, ← hp]
      have := sq_nonneg (p - c)
      nlinarith
    have h3 : ∫ y, (f y - c) ^ 2 ∂π = ∫ y in C, (f y - c) ^ 2 ∂π + ∫ y in Cᶜ, (f y - c) ^ 2 ∂π :=
      (integral_add_compl hC ((hf.sub_sq hc01).integrable _)).symm
    have h4 : ∫ y in Cᶜ, (f y - c) ^ 2 ∂π ≤ π.real Cᶜ := by
      calc ∫ y in Cᶜ, (f y - c) ^ 2 ∂π ≤ ∫ y in Cᶜ, (1 : ℝ) ∂π :=
            integral_mono ((hf.sub_sq hc01).integrable _) (integrable_const _) (hf.sub_sq hc01).le_one
        _ = π.real Cᶜ := by simp
    linarith
  have hint1 : Integrable (fun x => meanAt μ T 1 (fun y => (f y - p) ^ 2) x) π :=
    (unitFun_meanAt hT 1 (hf.sub_sq hp01)).integrable π
  have hint2 : Integrable (fun x => (meanAt μ T 1 f x - p) ^ 2) π := (hg.sub_sq hp01).integrable π
  have hst := meanAt_stationary hT hπ 1 (hf.sub_sq hp01)
  have hlow2 : δ * π.real C * (w - π.real Cᶜ) ≤
      ∫ x, (meanAt μ T 1 (fun y => (f y - p) ^ 2) x - (meanAt μ T 1 f x - p) ^ 2) ∂π := by
    calc δ * π.real C * (w - π.real Cᶜ) = ∫ x, C.indicator (fun _ => δ * (w - π.real Cᶜ)) x ∂π := by
          rw [integral_indicator_const _ hC, smul_eq_mul]; ring
      _ ≤ _ := by
          refine integral_mono ((integrable_const _).indicator hC) (hint1.sub hint2) fun x => ?_
          by_cases hx : x ∈ C
          · rw [Set.indicator_of_mem hx]; exact hbig x hx
          · rw [Set.indicator_of_notMem hx]; exact hpos x
  rw [integral_sub hint1 hint2, hst] at hlow2
  linarith

/-- Expected values after `n` steps from stationary starts: their variance. -/
theorem variance_bound (hT : Fresh μ T) (hπ : MeasurePreserving T (π.prod μ) (π.prod μ)) {C : Set X}
    (hC : MeasurableSet C) {δ : ℝ} (hδ : 0 ≤ δ) (hlow : LowerOn μ T π C (ENNReal.ofReal δ))
    {f : X → ℝ} (hf : UnitFun f) (n : ℕ) :
    ∫ x, (meanAt μ T n f x - ∫ y, f y ∂π) ^ 2 ∂π ≤ π.real Cᶜ + (1 - δ * π.real C) ^ n := by
  have hle1 : 0 ≤ 1 - δ * π.real C := by
    by_cases hne : C.Nonempty
    · obtain ⟨x, hx⟩ := hne
      have h := (hlow x hx Set.univ MeasurableSet.univ).trans prob_le_one
      rw [Set.univ_inter] at h
      have := ENNReal.toReal_mono ENNReal.one_ne_top h
      rw [ENNReal.toReal_mul, ENNReal.toReal_ofReal hδ, ENNReal.toReal_one] at this
      have h' : δ * π.real C ≤ 1 := this
      linarith
    · rw [Set.not_nonempty_iff_eq_empty.1 hne]; simp
  induction n with
  | zero =>
    have h0 : ∀ x, meanAt μ T 0 f x = f x := fun x => by simp [meanAt]
    simp only [h0, pow_zero]
    have h1 := ((hf.sub_sq (hf.integral_mem π)).integral_mem π).2
    have : 0 ≤ π.real Cᶜ := measureReal_nonneg
    linarith
  | succ n ih =>
    have hg := unitFun_meanAt (μ := μ) hT n hf
    have hs := variance_step hT hπ hC hδ hlow hg
    have e : ∀ x, meanAt μ T (n + 1) f x = meanAt μ T 1 (meanAt μ T n f) x := fun x => by
      rw [Nat.add_comm, meanAt_add hT 1 n hf]
    simp only [e]
    rw [meanAt_stationary hT hπ n hf] at hs
    refine hs.trans ?_
    rw [pow_succ]
    set w := ∫ x, (meanAt μ T n f x - ∫ y, f y ∂π) ^ 2 ∂π
    set c := π.real Cᶜ
    set a := δ * π.real C
    have : (1 - a) * (w - c) ≤ (1 - a) * (1 - a) ^ n := mul_le_mul_of_nonneg_left (by linarith) hle1
    linarith

end mean

/-- What the convergence of the chain rests on: `π` is kept, and there are sets of almost full
probability on which the law after one step is at least a multiple of `π`. -/
structure Harris (μ : Measure σ) (T : X × σ → X × σ) (π : Measure X) : Prop where
  fresh : Fresh μ T
  prob : IsProbabilityMeasure π
  kept : MeasurePreserving T (π.prod μ) (π.prod μ)
  lower : ∀ η : ℝ, 0 < η → ∃ C δ, MeasurableSet C ∧ 0 < δ ∧ π.real Cᶜ ≤ η ∧ LowerOn μ T π C (ENNReal.ofReal δ)

section harris
variable {π : Measure X}

theorem Harris.variance_small (H : Harris μ T π) {ε : ℝ} (hε : 0 < ε) :
    ∃ J : ℕ, ∀ n, J ≤ n → ∀ f, UnitFun f → ∫ x, (meanAt μ T n f x - ∫ y, f y ∂π) ^ 2 ∂π ≤ ε := by
  have := H.prob
  obtain ⟨C, δ, hC, hδ, hCη, hlow⟩ := H.lower (min (ε / 2) (1 / 2)) (by positivity)
  have hC1 : π.real Cᶜ ≤ ε / 2 := hCη.trans (min_le_left _ _)
  have hC2 : π.real Cᶜ ≤ 1 / 2 := hCη.trans (min_le_right _ _)
  have hpC : 0 < π.real C := by
    have := probReal_compl_eq_one_sub (μ := π) hC
    linarith
  have hle1 : 0 ≤ 1 - δ * π.real C := by
    have hne : C.Nonempty := by
      rw [Set.nonempty_iff_ne_empty]
      rintro rfl
      simp at hpC
    obtain ⟨x, hx⟩ := hne
    have h := (hlow x hx Set.univ MeasurableSet.univ).trans prob_le_one
    rw [Set.univ_inter] at h
    have := ENNReal.toReal_mono ENNReal.one_ne_top h
    rw [ENNReal.toReal_mul, ENNReal.toReal_ofReal hδ.le, ENNReal.toReal_one] at this
    have h' : δ * π.real C ≤ 1 := this
    linarith
  have hlt : 1 - δ * π.real C < 1 := by
    have : 0 < δ * π.real C := mul_pos hδ hpC
    linarith
  obtain ⟨J, hJ⟩ := exists_pow_lt_of_lt_one (show 0 < ε / 2 by positivity) hlt
  refine ⟨J, fun n hn f hf => (variance_bound H.fresh H.kept hC hδ.le hlow hf n).trans ?_⟩
  have : (1 - δ * π.real C) ^ n ≤ (1 - δ * π.real C) ^ J := pow_le_pow_of_le_one hle1 hlt.le hn
  linarith

/-- the same for the mean distance -/
theorem Harris.distance_small (H : Harris μ T π) {ε : ℝ} (hε : 0 < ε) :
    ∃ J : ℕ, ∀ n, J ≤ n → ∀ f, UnitFun f → ∫ x, |meanAt μ T n f x - ∫ y, f y ∂π| ∂π ≤ ε := by
  have := H.prob
  obtain ⟨J, hJ⟩ := H.variance_small (show 0 < ε ^ 2 / 2 by positivity)
  refine ⟨J, fun n hn f hf => ?_⟩
  have h := hJ n hn f hf
  have hg := unitFun_meanAt (μ := μ) H.fresh n hf
  have hp01 := hf.integral_mem π
  set p := ∫ y, f y ∂π
  have hle : ∀ x, |meanAt μ T n f x - p| ≤ ε / 2 + (meanAt μ T n f x - p) ^ 2 * (1 / (2 * ε)) := by
    intro x
    rw [← sq_abs (meanAt μ T n f x - p)]
    set a := |meanAt μ T n f x - p|
    have : 0 ≤ (a - ε) ^ 2 := sq_nonneg _
    rw [mul_one_div, ← sub_le_iff_le_add', le_div_iff₀ (by positivity)]
    nlinarith
  calc ∫ x, |meanAt μ T n f x - p| ∂π ≤ ∫ x, (ε / 2 + (meanAt μ T n f x - p) ^ 2 * (1 / (2 * ε))) ∂π :=
        integral_mono ((hg.abs_sub hp01).integrable π)
          ((integrable_const _).add (((hg.sub_sq hp01).integrable π).mul_const _)) hle
    _ = ε / 2 + (∫ x, (meanAt μ T n f x - p) ^ 2 ∂π) * (1 / (2 * ε)) := by
        rw [integral_add (integrable_const _) (((hg.sub_sq hp01).integrable π).mul_const _), integral_mul_const]
        simp
    _ ≤ ε / 2 + ε ^ 2 / 2 * (1 / (2 * ε)) := by gcongr
    _ ≤ ε := by
        have : ε ^ 2 / 2 * (1 / (2 * ε)) = ε / 4 := by field_simp; ring
        linarith

/-- Starts distributed with a density with respect to the stationary law. -/
theorem Harris.density_near (H : Harris μ T π) {ν : Measure X} [IsFiniteMeasure ν] (hν : ν ≪ π) {ε : ℝ}
    (hε : 0 < ε) :
    ∃ J : ℕ, ∀ n, J ≤ n → ∀ f, UnitFun f → ∫ x, |meanAt μ T n f x - ∫ y, f y ∂π| ∂ν ≤ ε := by
  have := H.prob
  set V := ν.real Set.univ with hV
  have hV0 : 0 ≤ V := measureReal_nonneg
  -- small sets
  have hfin : ∫⁻ x, ν.rnDeriv π x ∂π ≠ ⊤ := (Measure.lintegral_rnDeriv_lt_top ν π).ne
  obtain ⟨d, hd, hsmall⟩ := exists_pos_setLIntegral_lt_of_measure_lt hfin
    (show ENNReal.ofReal (ε / 2) ≠ 0 by simpa using hε)
  obtain ⟨d', hd', hdd⟩ : ∃ d' : ℝ, 0 < d' ∧ ENNReal.ofReal d' < d := by
    obtain ⟨d', h1, h2⟩ := ENNReal.lt_iff_exists_real_btwn.1 hd
    exact ⟨d', by simpa using h2.1, h2.2⟩
  set e := ε / (2 * (V + 1)) with he
  have he0 : 0 < e := by positivity
  obtain ⟨J, hJ⟩ := H.variance_small (show 0 < e ^ 2 * d' by positivity)
  refine ⟨J, fun n hn f hf => ?_⟩
  have hg := unitFun_meanAt (μ := μ) H.fresh n hf
  have hp01 := hf.integral_mem π
  have hv := hJ n hn f hf
  set p := ∫ y, f y ∂π
  set φ := fun x => |meanAt μ T n f x - p| with hφ
  have hφu : UnitFun φ := hg.abs_sub hp01
  set B := {x | e ≤ φ x} with hB
  have hBm : MeasurableSet B := measurableSet_le measurable_const hφu.meas
  have hπB : π B < d := by
    have h1 := mul_meas_ge_le_integral_of_nonneg (μ := π) (f := fun x => (meanAt μ T n f x - p) ^ 2)
      (ae_of_all _ fun x => sq_nonneg _) ((hg.sub_sq hp01).integrable π) (e ^ 2)
    have h2 : {x | e ^ 2 ≤ (meanAt μ T n f x - p) ^ 2} = B := by
      ext x
      simp only [hB, hφ, Set.mem_setOf_eq]
      rw [← sq_abs (meanAt μ T n f x - p)]
      exact pow_le_pow_iff_left₀ he0.le (abs_nonneg _) two_ne_zero
    rw [h2] at h1
    have h3 : π.real B ≤ d' := by
      have : e ^ 2 * π.real B ≤ e ^ 2 * d' := h1.trans hv
      exact le_of_mul_le_mul_left this (by positivity)
    refine lt_of_le_of_lt ?_ hdd
    rw [← ENNReal.ofReal_toReal (measure_ne_top π B)]
    exact ENNReal.ofReal_le_ofReal h3
  have hνB : ν.real B ≤ ε / 2 := by
    have h1 := hsmall B hπB
    rw [Measure.setLIntegral_rnDeriv hν] at h1
    have := ENNReal.toReal_mono ENNReal.ofReal_ne_top h1.le
    rwa [ENNReal.toReal_ofReal (by positivity)] at this
  have hle : ∀ x, φ x ≤ e + B.indicator (fun _ => (1 : ℝ)) x := by
    intro x
    by_cases hx : x ∈ B
    · rw [Set.indicator_of_mem hx]
      linarith [hφu.le_one x]
    · rw [Set.indicator_of_notMem hx]
      simp only [hB, Set.mem_setOf_eq, not_le] at hx
      linarith
  calc ∫ x, φ x ∂ν ≤ ∫ x, (e + B.indicator (fun _ => (1 : ℝ)) x) ∂ν :=
        integral_mono (hφu.integrable ν) ((integrable_const _).add ((integrable_const _).indicator hBm)) hle
    _ = e * V + ν.real B := by
        rw [integral_add (integrable_const _) ((integrable_const _).indicator hBm), integral_indicator_const _ hBm]
        simp [hV, mul_comm]
    _ ≤ ε / 2 + ε / 2 := by
        gcongr
        rw [he, div_mul_eq_mul_div, div_le_iff₀ (by positivity)]
        nlinarith
    _ = ε := by ring

/-- Starts from which the chain does not stay in null sets. -/
def Spreads (μ : Measure σ) (T : X × σ → X × σ) (π : Measure X) (x : X) : Prop :=
  ∀ ε : ℝ, 0 < ε → ∃ j, ∀ B, MeasurableSet B → π B = 0 → μ.real {s | (T^[j] (x, s)).1 ∈ B} ≤ ε

/-- **Convergence** from such starts, uniformly over all functions with values in `[0, 1]`. -/
theorem Harris.near (H : Harris μ T π) {x : X} (hx : Spreads μ T π x) {ε : ℝ} (hε : 0 < ε) :
    ∃ J : ℕ, ∀ n, J ≤ n → ∀ f, UnitFun f → |meanAt μ T n f x - ∫ y, f y ∂π| ≤ ε := by
  have := H.prob
  obtain ⟨j, hj⟩ := hx (ε / 2) (by positivity)
  have hprob := lawAt_prob (μ := μ) H.fresh j x
  set κ := lawAt μ T j x with hκ
  obtain ⟨B, hBm, hB1, hB2⟩ := Measure.mutuallySingular_singularPart κ π
  have hs : (κ.singularPart π).real Set.univ ≤ ε / 2 := by
    have h1 : (κ.singularPart π) Set.univ ≤ κ Bᶜ := by
      calc (κ.singularPart π) Set.univ ≤ (κ.singularPart π) B + (κ.singularPart π) Bᶜ := by
            rw [measure_add_measure_compl hBm]
        _ = (κ.singularPart π) Bᶜ := by rw [hB1, zero_add]
        _ ≤ κ Bᶜ := Measure.singularPart_le κ π _
    have h2 : κ.real Bᶜ ≤ ε / 2 := by
      have := hj Bᶜ hBm.compl hB2
      have e : κ.real Bᶜ = μ.real {s | (T^[j] (x, s)).1 ∈ Bᶜ} := by
        unfold Measure.real
        rw [hκ, lawAt, Measure.map_apply (H.fresh.measurable_row j x) hBm.compl]
        rfl
      rw [e]; exact this
    exact (ENNReal.toReal_mono (measure_ne_top _ _) h1).trans h2
  set ν := π.withDensity (κ.rnDeriv π) with hν
  have hsum : κ = κ.singularPart π + ν := κ.haveLebesgueDecomposition_add π
  have hνfin : IsFiniteMeasure ν := ⟨by
    rw [hν, withDensity_apply _ MeasurableSet.univ, Measure.restrict_univ]
    exact Measure.lintegral_rnDeriv_lt_top κ π⟩
  obtain ⟨J, hJ⟩ := H.density_near (ν := ν) (withDensity_absolutelyContinuous _ _) (show 0 < ε / 2 by positivity)
  refine ⟨j + J, fun n hn f hf => ?_⟩
  obtain ⟨n, rfl⟩ : ∃ k, n = j + k := ⟨n - j, by omega⟩
  have hg := unitFun_meanAt (μ := μ) H.fresh n hf
  have hp01 := hf.integral_mem π
  have hJ' := hJ n (by omega) f hf
  set p := ∫ y, f y ∂π
  have hφu : UnitFun fun x => |meanAt μ T n f x - p| := hg.abs_sub hp01
  rw [meanAt_add H.fresh j n hf, meanAt_eq H.fresh j hg.meas]
  have e1 : ∫ y, meanAt μ T n f y ∂κ - p = ∫ y, (meanAt μ T n f y - p) ∂κ := by
    rw [integral_sub (hg.integrable κ) (integrable_const _)]
    simp
  rw [← hκ, e1]
  refine (abs_integral_le_integral_abs).trans ?_
  calc ∫ y, |meanAt μ T n f y - p| ∂κ = ∫ y, |meanAt μ T n f y - p| ∂(κ.singularPart π + ν) := by rw [← hsum]
    _ = ∫ y, |meanAt μ T n f y - p| ∂κ.singularPart π + ∫ y, |meanAt μ T n f y - p| ∂ν :=
        integral_add_measure (hφu.integrable _) (hφu.integrable _)
    _ ≤ (κ.singularPart π).real Set.univ + ε / 2 := by
        gcongr
        calc ∫ y, |meanAt μ T n f y - p| ∂κ.singularPart π ≤ ∫ _, (1 : ℝ) ∂κ.singularPart π :=
              integral_mono (hφu.integrable _) (integrable_const _) hφu.le_one
          _ = _ := by simp
    _ ≤ ε := by linarith


theorem meanAt_correlation (hT : Fresh μ T) {f : X → ℝ} (hf : UnitFun f) {p : ℝ} (hp01 : 0 ≤ p ∧ p ≤ 1)
    (i m : ℕ) (x : X) :
    |∫ s, (f (T^[i] (x, s)).1 - p) * (f (T^[i + m] (x, s)).1 - p) ∂μ| ≤
      meanAt μ T i (fun y => |meanAt μ T m f y - p|) x := by
  have hg := unitFun_meanAt (μ := μ) hT m hf
  have hφu : UnitFun fun y => |meanAt μ T m f y - p| := hg.abs_sub hp01
  have hab : ∀ y, |f y - p| ≤ 1 := (hf.abs_sub hp01).le_one
  let g : X × σ → ℝ := fun z => (f z.1 - p) * (f (T^[m] z).1 - p)
  have hgm : Measurable g := ((hf.meas.comp measurable_fst).sub_const p).mul
    ((hf.meas.comp (measurable_fst.comp (hT.iterate m).measurable)).sub_const p)
  have hgb : ∀ z, ‖g z‖ ≤ 1 := fun z => by
    rw [Real.norm_eq_abs, abs_mul]
    exact mul_le_one₀ (hab _) (abs_nonneg _) (hab _)
  have hTi : Measurable fun s => T^[i] (x, s) :=
    (hT.iterate i).measurable.comp (measurable_const.prodMk measurable_id)
  have := lawAt_prob (μ := μ) hT i x
  have e1 : ∫ s, (f (T^[i] (x, s)).1 - p) * (f (T^[i + m] (x, s)).1 - p) ∂μ =
      ∫ y, (f y - p) * (meanAt μ T m f y - p) ∂lawAt μ T i x := by
    have a1 : ∫ s, (f (T^[i] (x, s)).1 - p) * (f (T^[i + m] (x, s)).1 - p) ∂μ =
        ∫ z, g z ∂(Measure.map (fun s => T^[i] (x, s)) μ) := by
      rw [integral_map hTi.aemeasurable hgm.aestronglyMeasurable]
      simp only [g, ← iterate_add_apply, Nat.add_comm m i]
    rw [a1, (hT.iterate i).map_eq x]
    change ∫ z, g z ∂(lawAt μ T i x).prod μ = _
    rw [integral_prod _ (Integrable.of_bound hgm.aestronglyMeasurable 1 (ae_of_all _ hgb))]
    refine integral_congr_ae (ae_of_all _ fun y => ?_)
    simp only [g]
    have hm : Measurable fun s => f (T^[m] (y, s)).1 := hf.meas.comp (hT.measurable_row m y)
    rw [integral_const_mul, integral_sub (Integrable.of_bound hm.aestronglyMeasurable 1
      (ae_of_all _ fun s => by rw [Real.norm_eq_abs, abs_of_nonneg (hf.nonneg _)]; exact hf.le_one _))
      (integrable_const _)]
    simp [meanAt]
  rw [e1, meanAt_eq hT i hφu.meas]
  refine (abs_integral_le_integral_abs).trans ?_
  refine integral_mono_of_nonneg (ae_of_all _ fun y => abs_nonneg _) (hφu.integrable _) (ae_of_all _ fun y => ?_)
  simp only [abs_mul]
  exact mul_le_of_le_one_left (abs_nonneg _) (hab y)

theorem card_lt (k N : ℕ) : ∑ i ∈ Finset.range k, (if i < N then (1 : ℝ) else 0) ≤ N := by
  rw [Finset.sum_boole]
  have : (Finset.filter (fun i => i < N) (Finset.range k)).card ≤ (Finset.range N).card :=
    Finset.card_le_card fun i hi => by simp at hi ⊢; exact hi.2
  rw [Finset.card_range] at this
  exact_mod_cast this

theorem card_near (k N : ℕ) : ∑ i ∈ Finset.range k, (if k - i < N then (1 : ℝ) else 0) ≤ N := by
  rw [← Finset.sum_range_reflect]
  refine le_trans (Finset.sum_le_sum (g := fun i => if i < N then (1 : ℝ) else 0) fun i hi => ?_) (card_lt k N)
  have := Finset.mem_range.1 hi
  by_cases h : k - (k - 1 - i) < N
  · rw [if_pos h, if_pos (by omega)]
  · rw [if_neg h]; split_ifs <;> norm_num

theorem second_moment_le (hT : Fresh μ T) {f : X → ℝ} (hf : UnitFun f) {p : ℝ} (hp01 : 0 ≤ p ∧ p ≤ 1)
    {x : X} {e : ℝ} (he : 0 ≤ e) {N : ℕ}
    (hN : ∀ i m, N ≤ i → N ≤ m → meanAt μ T i (fun y => |meanAt μ T m f y - p|) x ≤ e) (k : ℕ) :
    ∫ s, (∑ j ∈ Finset.range k, (f (T^[j] (x, s)).1 - p)) ^ 2 ∂μ ≤ 2 * e * k ^ 2 + (4 * N + 1) * k := by
  let g : ℕ → σ → ℝ := fun j s => f (T^[j] (x, s)).1 - p
  have hg : ∀ j, Measurable (g j) := fun j => (hf.meas.comp (hT.measurable_row j x)).sub_const p
  have hgb : ∀ j s, ‖g j s‖ ≤ 1 := fun j s => by
    rw [Real.norm_eq_abs]; exact (hf.abs_sub hp01).le_one _
  have hgi : ∀ i j, Integrable (fun s => g i s * g j s) μ := fun i j =>
    Integrable.of_bound ((hg i).mul (hg j)).aestronglyMeasurable 1 (ae_of_all _ fun s => by
      rw [norm_mul]; exact mul_le_one₀ (hgb i s) (norm_nonneg _) (hgb j s))
  have hSi : ∀ k, Integrable (fun s => (∑ j ∈ Finset.range k, g j s) ^ 2) μ := by
    intro k
    simp only [pow_two, Finset.sum_mul_sum]
    exact integrable_finsetSum _ fun i _ => integrable_finsetSum _ fun j _ => hgi i j
  have hSg : ∀ k, Integrable (fun s => (∑ j ∈ Finset.range k, g j s) * g k s) μ := by
    intro k
    simp only [Finset.sum_mul]
    exact integrable_finsetSum _ fun i _ => hgi i k
  change ∫ s, (∑ j ∈ Finset.range k, g j s) ^ 2 ∂μ ≤ _
  have hcor : ∀ i m, ∫ s, g i s * g (i + m) s ∂μ ≤ meanAt μ T i (fun y => |meanAt μ T m f y - p|) x := fun i m =>
    (le_abs_self _).trans (meanAt_correlation hT hf hp01 i m x)
  have hle1 : ∀ i m, meanAt μ T i (fun y => |meanAt μ T m f y - p|) x ≤ 1 := fun i m =>
    (unitFun_meanAt hT i ((unitFun_meanAt hT m hf).abs_sub hp01)).le_one x
  induction k with
  | zero => simp
  | succ k ih =>
    have ee : ∀ s, (∑ j ∈ Finset.range (k + 1), g j s) ^ 2 =
        (∑ j ∈ Finset.range k, g j s) ^ 2 + (2 * ((∑ j ∈ Finset.range k, g j s) * g k s) + g k s * g k s) := by
      intro s
      rw [Finset.sum_range_succ]; ring
    simp only [ee]
    have hadd : Integrable (fun s => 2 * ((∑ j ∈ Finset.range k, g j s) * g k s) + g k s * g k s) μ :=
      ((hSg k).const_mul 2).add (hgi k k)
    rw [integral_add (hSi k) hadd, integral_add ((hSg k).const_mul 2) (hgi k k), integral_const_mul]
    have hsum : ∫ s, (∑ j ∈ Finset.range k, g j s) * g k s ∂μ ≤ e * k + 2 * N := by
      simp only [Finset.sum_mul]
      rw [integral_finsetSum _ fun i _ => hgi i k]
      calc ∑ i ∈ Finset.range k, ∫ s, g i s * g k s ∂μ ≤ ∑ i ∈ Finset.range k,
            (e + ((if i < N then (1 : ℝ) else 0) + (if k - i < N then (1 : ℝ) else 0))) := by
            refine Finset.sum_le_sum fun i hi => ?_
            have hik := Finset.mem_range.1 hi
            have h1 := hcor i (k - i)
            rw [Nat.add_sub_cancel' hik.le] at h1
            by_cases a : i < N
            · rw [if_pos a]
              have : (0 : ℝ) ≤ if k - i < N then (1 : ℝ) else 0 := by split_ifs <;> norm_num
              linarith [hle1 i (k - i)]
            · rw [if_neg a]
              by_cases b : k - i < N
              · rw [if_pos b]; linarith [hle1 i (k - i)]
              · rw [if_neg b]
                linarith [hN i (k - i) (not_lt.1 a) (not_lt.1 b)]
        _ ≤ e * k + 2 * N := by
            rw [Finset.sum_add_distrib, Finset.sum_add_distrib]
            have h1 := card_lt k N
            have h2 := card_near k N
            simp only [Finset.sum_const, Finset.card_range, nsmul_eq_mul]
            linarith
    have hdiag : ∫ s, g k s * g k s ∂μ ≤ 1 := (hcor k 0).trans (hle1 k 0)
    have hk0 : (0 : ℝ) ≤ k := Nat.cast_nonneg k
    push_cast
    nlinarith

/-- **Averages** from such starts, uniformly over all functions bounded by `c` on the set the chain stays in. -/
theorem Harris.average (H : Harris μ T π) {x : X} (hsp : Spreads μ T π x) {S : Set X} (hS : MeasurableSet S)
    (keep : ∀ x ∈ S, ∀ᵐ s ∂μ, (T (x, s)).1 ∈ S) (hπS : π Sᶜ = 0) (hx : x ∈ S) {c η ε : ℝ} (hc : 0 < c)
    (hη : 0 < η) (hε : 0 < ε) :
    ∃ K : ℕ, ∀ k, K ≤ k → ∀ f : X → ℝ, Measurable f → (∀ x ∈ S, |f x| ≤ c) →
      μ.real {s | η ≤ |(∑ j ∈ Finset.range k, f (T^[j] (x, s)).1) / k - ∫ y, f y ∂π|} ≤ ε := by
  have := H.prob
  set e := ε * η ^ 2 / (16 * c ^ 2) with he
  have he0 : 0 < e := by positivity
  obtain ⟨J1, hJ1⟩ := H.distance_small (show 0 < e / 2 by positivity)
  obtain ⟨J2, hJ2⟩ := H.near hsp (show 0 < e / 2 by positivity)
  set N := max J1 J2 with hN
  obtain ⟨K, hK⟩ := exists_nat_gt (8 * c ^ 2 * (4 * N + 1) / (ε * η ^ 2))
  refine ⟨K + 1, fun k hk f hf hfc => ?_⟩
  have hk0 : (0 : ℝ) < k := by exact_mod_cast (show 0 < k by omega)
  have hkK : (K : ℝ) ≤ k := by exact_mod_cast (show K ≤ k by omega)
  -- the function brought to the unit interval
  let F : X → ℝ := fun y => (max (-c) (min c (f y)) + c) / (2 * c)
  have hF : UnitFun F := ⟨((measurable_const.max (measurable_const.min hf)).add_const c).div_const _,
    fun y => div_nonneg (by linarith [le_max_left (-c) (min c (f y))]) (by linarith), fun y => by
      simp only [F]
      rw [div_le_one (by linarith)]
      have : max (-c) (min c (f y)) ≤ c := max_le (by linarith) (min_le_left _ _)
      linarith⟩
  have hFf : ∀ y ∈ S, f y = 2 * c * F y - c := by
    intro y hy
    have := abs_le.1 (hfc y hy)
    simp only [F]
    rw [min_eq_right this.2, max_eq_right this.1]
    field_simp
    ring
  have haeπ : ∀ᵐ y ∂π, y ∈ S := hπS
  have hπf : ∫ y, f y ∂π = 2 * c * ∫ y, F y ∂π - c := by
    rw [integral_congr_ae (haeπ.mono hFf), integral_sub ((hF.integrable π).const_mul _) (integrable_const _),
      integral_const_mul]
    simp
  have hp01 := hF.integral_mem π
  have hnear : ∀ i m, N ≤ i → N ≤ m → meanAt μ T i (fun y => |meanAt μ T m F y - ∫ y, F y ∂π|) x ≤ e := by
    intro i m hi hm
    have hφu : UnitFun fun y => |meanAt μ T m F y - ∫ y, F y ∂π| := (unitFun_meanAt H.fresh m hF).abs_sub hp01
    have h1 := hJ1 m ((le_max_left _ _).trans hm) F hF
    have h2 := hJ2 i ((le_max_right _ _).trans hi) _ hφu
    have h3 := (abs_le.1 h2).2
    linarith
  have hmom := second_moment_le H.fresh hF hp01 he0.le hnear k
  set p := ∫ y, F y ∂π with hp
  have hmeas : Measurable fun s => ∑ j ∈ Finset.range k, (F (T^[j] (x, s)).1 - p) :=
    Finset.measurable_sum _ fun j _ => (hF.meas.comp (H.fresh.measurable_row j x)).sub_const p
  have hSi : Integrable (fun s => (∑ j ∈ Finset.range k, (F (T^[j] (x, s)).1 - p)) ^ 2) μ := by
    refine Integrable.of_bound (hmeas.pow_const 2).aestronglyMeasurable ((k : ℝ) ^ 2) (ae_of_all _ fun s => ?_)
    rw [norm_pow]
    gcongr
    refine (norm_sum_le _ _).trans ?_
    calc ∑ j ∈ Finset.range k, ‖F (T^[j] (x, s)).1 - p‖ ≤ ∑ j ∈ Finset.range k, (1 : ℝ) :=
          Finset.sum_le_sum fun j _ => by
            rw [Real.norm_eq_abs]
            exact (hF.abs_sub hp01).le_one _
      _ = k := by simp
  have hall : ∀ᵐ s ∂μ, ∀ j, (T^[j] (x, s)).1 ∈ S :=
    ae_all_iff.2 fun j => keeps_iterate H.fresh hS keep j x hx
  set t := (k * η / (2 * c)) ^ 2 with ht
  have ht0 : 0 < t := by positivity
  have hsub : {s | η ≤ |(∑ j ∈ Finset.range k, f (T^[j] (x, s)).1) / k - ∫ y, f y ∂π|} ≤ᵐ[μ]
      {s | t ≤ (∑ j ∈ Finset.range k, (F (T^[j] (x, s)).1 - p)) ^ 2} := by
    filter_upwards [hall] with s hs h
    change η ≤ _ at h
    change t ≤ _
    have e : (∑ j ∈ Finset.range k, f (T^[j] (x, s)).1) / k - ∫ y, f y ∂π =
        2 * c / k * ∑ j ∈ Finset.range k, (F (T^[j] (x, s)).1 - p) := by
      rw [hπf, Finset.sum_congr rfl fun j _ => hFf _ (hs j), Finset.sum_sub_distrib, Finset.sum_sub_distrib,
        ← Finset.mul_sum]
      simp only [Finset.sum_const, Finset.card_range, nsmul_eq_mul]
      field_simp
      ring
    rw [e, abs_mul, abs_of_pos (by positivity)] at h
    rw [ht, ← sq_abs (∑ j ∈ Finset.range k, (F (T^[j] (x, s)).1 - p))]
    refine pow_le_pow_left₀ (by positivity) ?_ 2
    rw [div_le_iff₀ (by positivity)]
    rw [div_mul_eq_mul_div, le_div_iff₀ hk0] at h
    linarith
  have hch := mul_meas_ge_le_integral_of_nonneg (ae_of_all _ fun s => sq_nonneg _) hSi t
  have hle : μ.real {s | η ≤ |(∑ j ∈ Finset.range k, f (T^[j] (x, s)).1) / k - ∫ y, f y ∂π|} ≤
      μ.real {s | t ≤ (∑ j ∈ Finset.range k, (F (T^[j] (x, s)).1 - p)) ^ 2} :=
    ENNReal.toReal_mono (measure_ne_top _ _) (measure_mono_ae hsub)
  refine hle.trans ?_
  have h3 : t * μ.real {s | t ≤ (∑ j ∈ Finset.range k, (F (T^[j] (x, s)).1 - p)) ^ 2} ≤
      2 * e * k ^ 2 + (4 * N + 1) * k := hch.trans hmom
  refine le_of_mul_le_mul_left (h3.trans ?_) ht0
  have hK' : 8 * c ^ 2 * (4 * N + 1) ≤ ε * η ^ 2 * k := by
    have := hK.le.trans hkK
    rw [div_le_iff₀ (by positivity)] at this
    linarith
  have e1 : 2 * e * (k : ℝ) ^ 2 = t * (ε / 2) := by
    rw [he, ht]; field_simp; ring
  have e2 : (4 * (N : ℝ) + 1) * k ≤ t * (ε / 2) := by
    have : t * (ε / 2) = (ε * η ^ 2 * k) * k / (8 * c ^ 2) := by rw [ht]; field_simp; ring
    rw [this, le_div_iff₀ (by positivity)]
    nlinarith
  linarith

end harris

end Verif
