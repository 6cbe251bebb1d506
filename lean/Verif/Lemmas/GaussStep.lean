import Verif.Spec.Points
import Verif.Spec.IdealRng
import Mathlib.Probability.Distributions.Gaussian.Real
import Mathlib.MeasureTheory.Measure.Lebesgue.Basic
import Mathlib.MeasureTheory.Integral.Marginal
import Mathlib.MeasureTheory.Constructions.Pi

/-! # A vector of standard normal numbers times a factor, as a distribution with density -/

namespace Verif
open MeasureTheory Finset
open scoped ENNReal Matrix
variable {n : ℕ}

instance : IsProbabilityMeasure (normalLaw n) := by unfold normalLaw; infer_instance

theorem lintegral_fin_prod : ∀ (n : ℕ) (μ : Fin n → Measure ℝ) [∀ i, SigmaFinite (μ i)] (f : Fin n → ℝ → ℝ≥0∞),
    (∀ i, Measurable (f i)) → ∫⁻ x, ∏ i, f i (x i) ∂Measure.pi μ = ∏ i, ∫⁻ x, f i x ∂μ i
  | 0, μ, _, f, _ => by simp [Measure.pi_of_empty μ]
  | n + 1, μ, _, f, hf => by
    have e := (measurePreserving_piFinSuccAbove μ 0).symm
    rw [← e.lintegral_comp_emb (MeasurableEquiv.measurableEmbedding _)]
    simp only [MeasurableEquiv.piFinSuccAbove_symm_apply, Fin.insertNthEquiv, Fin.prod_univ_succ,
      Fin.insertNth_zero, Equiv.coe_fn_mk, Fin.cons_succ, Fin.zero_succAbove, cast_eq, Fin.cons_zero]
    rw [lintegral_prod_mul (f := f 0) (g := fun x : Fin n → ℝ => ∏ i, f i.succ (x i)) (hf 0).aemeasurable
      (Finset.measurable_prod _ fun i _ => (hf _).comp (measurable_pi_apply i)).aemeasurable, lintegral_fin_prod n (fun i => μ i.succ) (fun i => f i.succ) fun i => hf _]

theorem normalLaw_eq : normalLaw n = (volume : Measure (Fin n → ℝ)).withDensity
    fun z => ∏ i, ProbabilityTheory.gaussianPDF 0 1 (z i) := by
  unfold normalLaw
  refine Measure.pi_eq fun s hs => ?_
  rw [withDensity_apply _ (MeasurableSet.univ_pi hs), ← lintegral_indicator (MeasurableSet.univ_pi hs)]
  have : ∀ z : Fin n → ℝ, (Set.univ.pi s).indicator
      (fun z => ∏ i, ProbabilityTheory.gaussianPDF 0 1 (z i)) z =
      ∏ i, (s i).indicator (ProbabilityTheory.gaussianPDF 0 1) (z i) := by
    intro z
    by_cases hz : z ∈ Set.univ.pi s
    · rw [Set.indicator_of_mem hz]
      exact prod_congr rfl fun i _ => by rw [Set.indicator_of_mem (hz i trivial)]
    · rw [Set.indicator_of_notMem hz]
      simp only [Set.mem_pi, Set.mem_univ, forall_const, not_forall] at hz
      obtain ⟨i, hi⟩ := hz
      rw [prod_eq_zero (mem_univ i) (by rw [Set.indicator_of_notMem hi])]
  simp only [this]
  rw [volume_pi, lintegral_fin_prod n _ _ fun i => (ProbabilityTheory.measurable_gaussianPDF 0 1).indicator (hs i)]
  refine prod_congr rfl fun i _ => ?_
  rw [lintegral_indicator (hs i), ProbabilityTheory.gaussianReal_apply _ one_ne_zero]

/-- the normalising constant of `gauss W` if `W` is the inverse of `A` -/
noncomputable def gaussConst (A : Matrix (Fin n) (Fin n) ℝ) : ℝ≥0∞ :=
  ENNReal.ofReal |A.transpose.det⁻¹| * ENNReal.ofReal ((√(2 * Real.pi * 1))⁻¹ ^ n)

/-- density of the proposal `x + z A` -/
noncomputable def propDensity (A : Matrix (Fin n) (Fin n) ℝ) (W : Fin n → Fin n → ℝ) (x y : Fin n → ℝ) : ℝ≥0∞ :=
  gaussConst A * ENNReal.ofReal (gauss W x y)

theorem prod_gaussianPDF (w : Fin n → ℝ) : ∏ i, ProbabilityTheory.gaussianPDF 0 1 (w i) =
    ENNReal.ofReal ((√(2 * Real.pi * 1))⁻¹ ^ n) * ENNReal.ofReal (Real.exp (-(1 / 2) * ∑ j, w j ^ 2)) := by
  simp only [ProbabilityTheory.gaussianPDF, ProbabilityTheory.gaussianPDFReal]
  rw [← ENNReal.ofReal_prod_of_nonneg fun i _ => by positivity, prod_mul_distrib, prod_const, card_univ,
    Fintype.card_fin, ← Real.exp_sum, ENNReal.ofReal_mul (by positivity)]
  congr 3
  rw [mul_sum]
  refine sum_congr rfl fun j _ => ?_
  norm_num
  ring

theorem measurable_gauss {α : Type} [MeasurableSpace α] (W : Fin n → Fin n → ℝ)
    {f g : α → Fin n → ℝ} (hf : Measurable f) (hg : Measurable g) : Measurable fun a => gauss W (f a) (g a) := by
  unfold gauss
  refine Real.measurable_exp.comp (Measurable.const_mul ?_ _)
  refine Finset.measurable_sum _ fun j _ => Measurable.pow_const ?_ 2
  refine Finset.measurable_sum _ fun i _ => Measurable.mul_const ?_ _
  exact ((measurable_pi_apply i).comp hg).sub ((measurable_pi_apply i).comp hf)

theorem measurable_propDensity {α : Type} [MeasurableSpace α] (A : Matrix (Fin n) (Fin n) ℝ)
    (W : Fin n → Fin n → ℝ) {f g : α → Fin n → ℝ} (hf : Measurable f) (hg : Measurable g) :
    Measurable fun a => propDensity A W (f a) (g a) := by
  unfold propDensity
  exact (measurable_gauss W hf hg).ennreal_ofReal.const_mul _

/-- The value `x + z A` for standard normal `z` has density `propDensity A W x`. -/
theorem lintegral_step {A : Matrix (Fin n) (Fin n) ℝ} {W : Fin n → Fin n → ℝ}
    (h : A * Matrix.of W = 1) (x : Fin n → ℝ)
    {f : (Fin n → ℝ) → ℝ≥0∞} (hf : Measurable f) :
    ∫⁻ z, f (x + z ᵥ* A) ∂normalLaw n = ∫⁻ y, propDensity A W x y * f y := by
  have hdet : A.transpose.det ≠ 0 := by
    rw [Matrix.det_transpose]
    intro h0
    have := congrArg Matrix.det h
    rw [Matrix.det_mul, h0, zero_mul, Matrix.det_one] at this
    exact zero_ne_one this
  have hmeas : Measurable fun z : Fin n → ℝ => ∏ i, ProbabilityTheory.gaussianPDF 0 1 (z i) :=
    Finset.measurable_prod _ fun i _ => (ProbabilityTheory.measurable_gaussianPDF 0 1).comp (measurable_pi_apply i)
  have hlin : Measurable (Matrix.toLin' A.transpose) := (LinearMap.continuous_of_finiteDimensional _).measurable
  have hW : Measurable fun y : Fin n → ℝ => y ᵥ* Matrix.of W := by
    have e : (fun y : Fin n → ℝ => y ᵥ* Matrix.of W) = Matrix.toLin' (Matrix.of W).transpose := by
      funext y; simp [Matrix.mulVec_transpose]
    rw [e]
    exact (LinearMap.continuous_of_finiteDimensional (Matrix.toLin' (Matrix.of W).transpose)).measurable
  let H : (Fin n → ℝ) → ℝ≥0∞ := fun y => (∏ i, ProbabilityTheory.gaussianPDF 0 1 ((y ᵥ* Matrix.of W) i)) * f (x + y)
  have hH : Measurable H := (hmeas.comp hW).mul (hf.comp (measurable_const_add x))
  have e1 : ∀ z : Fin n → ℝ, (∏ i, ProbabilityTheory.gaussianPDF 0 1 (z i)) * f (x + z ᵥ* A) =
      H (Matrix.toLin' A.transpose z) := by
    intro z
    simp only [H, Matrix.toLin'_apply, Matrix.mulVec_transpose]
    rw [Matrix.vecMul_vecMul, h, Matrix.vecMul_one]
  have hA : Measurable fun z : Fin n → ℝ => x + z ᵥ* A := by
    have := hlin.const_add x
    simpa [Matrix.mulVec_transpose] using this
  rw [normalLaw_eq, lintegral_withDensity_eq_lintegral_mul _ hmeas (show Measurable fun z => f (x + z ᵥ* A) from hf.comp hA)]
  simp only [Pi.mul_apply, e1]
  rw [← lintegral_map hH hlin, Real.map_matrix_volume_pi_eq_smul_volume_pi hdet, lintegral_smul_measure,
    ← lintegral_add_right_eq_self (μ := volume) H (-x), smul_eq_mul, ← lintegral_const_mul]
  · refine lintegral_congr fun y => ?_
    simp only [H]
    rw [prod_gaussianPDF]
    unfold propDensity gaussConst gauss
    rw [show x + (y + -x) = y by abel]
    simp only [Matrix.vecMul, dotProduct, Matrix.of_apply, Pi.add_apply, Pi.neg_apply, ← sub_eq_add_neg]
    ring
  · exact hH.comp (measurable_add_const _)

theorem lintegral_propDensity {A : Matrix (Fin n) (Fin n) ℝ} {W : Fin n → Fin n → ℝ}
    (h : A * Matrix.of W = 1) (x : Fin n → ℝ) :
    ∫⁻ y, propDensity A W x y = 1 := by
  have := lintegral_step h x (f := fun _ => 1) measurable_const
  simpa using this.symm

end Verif
