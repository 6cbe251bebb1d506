import Verif.Lemmas.CoinRng
import Mathlib.Probability.Distributions.Gamma
import Mathlib.Probability.ConditionalProbability
import Mathlib.MeasureTheory.Function.Jacobian
import Mathlib.Analysis.SpecialFunctions.Log.Deriv
import Mathlib.Analysis.Calculus.Deriv.MeanValue
import Mathlib.MeasureTheory.Integral.IntegralEqImproper
import Mathlib.Analysis.SpecialFunctions.ImproperIntegrals

/-! # Gamma law from normal and uniform numbers

The mathematics of the method of Marsaglia and Tsang, without reference to the code. -/

set_option linter.unusedSectionVars false

namespace Verif
open MeasureTheory ProbabilityTheory Real Set
open scoped ENNReal

/-- `log (1 + t)` lies below its third Taylor polynomial -/
theorem log_le_taylor3 {t : ℝ} (ht : -1 < t) : log (1 + t) ≤ t - t ^ 2 / 2 + t ^ 3 / 3 := by
  let f : ℝ → ℝ := fun t => t - t ^ 2 / 2 + t ^ 3 / 3 - log (1 + t)
  have hd : ∀ s : ℝ, -1 < s → HasDerivAt f (s ^ 3 / (1 + s)) s := by
    intro s hs
    have e1 : HasDerivAt (fun s : ℝ => log (1 + s)) (1 / (1 + s)) s :=
      ((hasDerivAt_id s).const_add 1).log (by simp; linarith)
    have e2 : HasDerivAt (fun s : ℝ => s - s ^ 2 / 2 + s ^ 3 / 3)
      (1 - (2:ℕ) * s ^ (2 - 1) * 1 / 2 + (3:ℕ) * s ^ (3 - 1) * 1 / 3) s :=
      ((hasDerivAt_id s).sub (((hasDerivAt_id s).pow 2).div_const 2)).add
        (((hasDerivAt_id s).pow 3).div_const 3)
    refine (e2.sub e1).congr_deriv ?_
    have : (1 + s) ≠ 0 := by linarith
    push_cast
    field_simp
    ring
  have h0 : f 0 = 0 := by simp [f]
  have hmain : 0 ≤ f t := by
    rcases le_total 0 t with h | h
    · have hm : MonotoneOn f (Icc 0 t) := by
        refine monotoneOn_of_deriv_nonneg (convex_Icc 0 t)
          (fun s hs => (hd s (by linarith [hs.1])).continuousAt.continuousWithinAt)
          (fun s hs => by
            rw [interior_Icc] at hs
            exact (hd s (by linarith [hs.1])).differentiableAt.differentiableWithinAt)
          (fun s hs => ?_)
        rw [interior_Icc] at hs
        rw [(hd s (by linarith [hs.1])).deriv]
        have := hs.1
        positivity
      have := hm (left_mem_Icc.2 h) (right_mem_Icc.2 h) h
      rwa [h0] at this
    · have hm : AntitoneOn f (Icc t 0) := by
        refine antitoneOn_of_deriv_nonpos (convex_Icc t 0)
          (fun s hs => (hd s (by linarith [hs.1])).continuousAt.continuousWithinAt)
          (fun s hs => by
            rw [interior_Icc] at hs
            exact (hd s (by linarith [hs.1])).differentiableAt.differentiableWithinAt)
          (fun s hs => ?_)
        rw [interior_Icc] at hs
        rw [(hd s (by linarith [hs.1])).deriv]
        refine div_nonpos_of_nonpos_of_nonneg ?_ (by linarith [hs.1])
        have := hs.2
        nlinarith [sq_nonneg s]
      have := hm (left_mem_Icc.2 h) (right_mem_Icc.2 h) h
      rwa [h0] at this
  have : f t = t - t ^ 2 / 2 + t ^ 3 / 3 - log (1 + t) := rfl
  linarith

/-- the logarithm of the acceptance probability -/
noncomputable def mtH (d c x : ℝ) : ℝ := x * x / 2 + d * (1 - (1 + c * x) ^ 3 + 3 * log (1 + c * x))

theorem mtH_nonpos {d c x : ℝ} (hd : 0 < d) (hc : 9 * d * c ^ 2 = 1) (hx : 0 < 1 + c * x) : mtH d c x ≤ 0 := by
  have h := log_le_taylor3 (t := c * x) (by linarith)
  have e : x * x = 9 * d * (c * x) ^ 2 := by
    calc x * x = (9 * d * c ^ 2) * (x * x) := by rw [hc, one_mul]
      _ = _ := by ring
  unfold mtH
  rw [e]
  have : 9 * d * (c * x) ^ 2 / 2 + d * (1 - (1 + c * x) ^ 3 + 3 * log (1 + c * x)) =
      3 * d * (log (1 + c * x) - (c * x - (c * x) ^ 2 / 2 + (c * x) ^ 3 / 3)) := by ring
  rw [this]
  exact mul_nonpos_of_nonneg_of_nonpos (by positivity) (by linarith)

/-- normal numbers that pass the first loop -/
def mtFirst (c : ℝ) : Set ℝ := {x | 0 < 1 + c * x}

/-- pairs of a normal and a uniform number that pass the exact test -/
def mtSecond (d c : ℝ) : Set (ℝ × ℝ) := {p | p.2 < exp (mtH d c p.1)}

theorem measurableSet_mtFirst (c : ℝ) : MeasurableSet (mtFirst c) :=
  measurableSet_lt measurable_const (by fun_prop)

theorem measurable_mtH (d c : ℝ) : Measurable (mtH d c) := by
  unfold mtH
  fun_prop

theorem measurableSet_mtSecond (d c : ℝ) : MeasurableSet (mtSecond d c) :=
  measurableSet_lt measurable_snd (((measurable_mtH d c).comp measurable_fst).exp)

/-- the mass of the normal law that passes the first loop -/
theorem mtFirst_ne_zero (c : ℝ) : gaussianReal 0 1 (mtFirst c) ≠ 0 := by
  intro h
  have h2 := gaussianReal_absolutelyContinuous' 0 (one_ne_zero) h
  have hopen : IsOpen (mtFirst c) := isOpen_lt continuous_const (by fun_prop)
  exact (hopen.measure_ne_zero volume ⟨0, by simp [mtFirst]⟩) h2

/-- unnormalised integral of `f` of the accepted value -/
noncomputable def mtInt (b d c : ℝ) (f : ℝ → ℝ≥0∞) : ℝ≥0∞ :=
  ∫⁻ x in mtFirst c, ENNReal.ofReal (exp (d * (1 - (1 + c * x) ^ 3 + 3 * log (1 + c * x)))) *
    f (b * d * (1 + c * x) ^ 3)

theorem gamma_change {a b d c : ℝ} (ha : 1 ≤ a) (hb : 0 < b) (hd : d = a - 1 / 3) (hc0 : 0 < c) :
    ∃ C : ℝ≥0∞, ∀ f : ℝ → ℝ≥0∞, Measurable f → ∫⁻ y, f y ∂gammaMeasure a b⁻¹ = C * mtInt b d c f := by
  have hd0 : 0 < d := by rw [hd]; linarith
  refine ⟨ENNReal.ofReal (3 * (b * d) * c * (b⁻¹ ^ a / Gamma a * (b * d) ^ (a - 1)) * exp (-d)), fun f hf => ?_⟩
  have hg : ∀ x ∈ mtFirst c, HasDerivWithinAt (fun x => b * d * (1 + c * x) ^ 3)
      (b * d * (3 * (1 + c * x) ^ 2 * c)) (mtFirst c) x := by
    intro x _
    have h1 : HasDerivAt (fun x : ℝ => 1 + c * x) c x := by
      simpa using ((hasDerivAt_id x).const_mul c).const_add 1
    have h2 := (h1.pow 3).const_mul (b * d)
    refine (h2.congr_deriv ?_).hasDerivWithinAt
    push_cast
    ring
  have hinj : InjOn (fun x => b * d * (1 + c * x) ^ 3) (mtFirst c) := by
    intro x hx y hy hxy
    have h1 : (1 + c * x) ^ 3 = (1 + c * y) ^ 3 := mul_left_cancel₀ (by positivity) hxy
    have h2 : 1 + c * x = 1 + c * y := (pow_left_inj₀ (le_of_lt hx) (le_of_lt hy) (by norm_num)).1 h1
    have h3 : c * x = c * y := by linarith
    exact mul_left_cancel₀ hc0.ne' h3
  have himg : (fun x => b * d * (1 + c * x) ^ 3) '' mtFirst c = Ioi 0 := by
    ext y
    constructor
    · rintro ⟨x, hx, rfl⟩
      have : 0 < 1 + c * x := hx
      exact (by positivity : 0 < b * d * (1 + c * x) ^ 3)
    · intro hy
      have hy0 : 0 < y := hy
      have hq : 0 < y / (b * d) := by positivity
      have hr : 0 < (y / (b * d)) ^ ((1 : ℝ) / 3) := by positivity
      have hr3 : ((y / (b * d)) ^ ((1 : ℝ) / 3)) ^ 3 = y / (b * d) := by
        rw [← rpow_natCast, ← rpow_mul hq.le]; norm_num
      refine ⟨((y / (b * d)) ^ ((1 : ℝ) / 3) - 1) / c, ?_, ?_⟩
      · show 0 < 1 + c * (((y / (b * d)) ^ ((1 : ℝ) / 3) - 1) / c)
        rw [mul_div_cancel₀ _ hc0.ne']; linarith
      · show b * d * (1 + c * (((y / (b * d)) ^ ((1 : ℝ) / 3) - 1) / c)) ^ 3 = y
        rw [mul_div_cancel₀ _ hc0.ne', add_sub_cancel, hr3, mul_div_cancel₀ _ (by positivity)]
  have hpos : ∫⁻ y, f y ∂gammaMeasure a b⁻¹ = ∫⁻ y in Ioi 0, gammaPDF a b⁻¹ y * f y := by
    unfold gammaMeasure
    have hpm : Measurable (gammaPDF a b⁻¹) := (measurable_gammaPDFReal a b⁻¹).ennreal_ofReal
    rw [lintegral_withDensity_eq_lintegral_mul _ hpm hf]
    rw [← setLIntegral_congr (Ioi_ae_eq_Ici (a := (0 : ℝ))).symm, ← lintegral_indicator measurableSet_Ici]
    congr 1
    funext y
    by_cases hy : y ∈ Ici (0 : ℝ)
    · rw [indicator_of_mem hy]; rfl
    · rw [indicator_of_notMem hy, Pi.mul_apply, gammaPDF_of_neg (not_le.1 hy), zero_mul]
  rw [hpos, ← himg, lintegral_image_eq_lintegral_abs_deriv_mul (measurableSet_mtFirst c) hg hinj]
  unfold mtInt
  rw [← lintegral_const_mul' _ _ ENNReal.ofReal_ne_top]
  refine setLIntegral_congr_fun (measurableSet_mtFirst c) fun x hx => ?_
  have hx0 : 0 < 1 + c * x := hx
  show ENNReal.ofReal |b * d * (3 * (1 + c * x) ^ 2 * c)| *
    (gammaPDF a b⁻¹ (b * d * (1 + c * x) ^ 3) * f (b * d * (1 + c * x) ^ 3)) = _ * (_ * f (b * d * (1 + c * x) ^ 3))
  rw [← mul_assoc (ENNReal.ofReal |b * d * (3 * (1 + c * x) ^ 2 * c)|),
    ← mul_assoc _ (ENNReal.ofReal (exp (d * _)))]
  congr 1
  rw [gammaPDF_of_nonneg (by positivity), abs_of_pos (by positivity), ← ENNReal.ofReal_mul (by positivity),
    ← ENNReal.ofReal_mul (by
      have := Gamma_pos_of_pos (by linarith : 0 < a)
      positivity)]
  congr 1
  have e1 : exp (-(b⁻¹ * (b * d * (1 + c * x) ^ 3))) = exp (-(d * (1 + c * x) ^ 3)) := by
    congr 1
    field_simp
  have e2 : (b * d * (1 + c * x) ^ 3) ^ (a - 1) * (1 + c * x) ^ 2 =
      (b * d) ^ (a - 1) * exp (d * (3 * log (1 + c * x))) := by
    rw [mul_rpow (by positivity) (by positivity), mul_assoc]
    congr 1
    rw [show d * (3 * log (1 + c * x)) = log (1 + c * x) * (3 * d) by ring, ← rpow_def_of_pos hx0,
      ← rpow_natCast, ← rpow_natCast, ← rpow_mul hx0.le, ← rpow_add hx0]
    congr 1
    rw [hd]
    push_cast
    ring
  have e3 : exp (d * (1 - (1 + c * x) ^ 3 + 3 * log (1 + c * x))) * exp (-d) =
      exp (-(d * (1 + c * x) ^ 3)) * exp (d * (3 * log (1 + c * x))) := by
    rw [← exp_add, ← exp_add]
    congr 1
    ring
  rw [e1]
  calc b * d * (3 * (1 + c * x) ^ 2 * c) *
        (b⁻¹ ^ a / Gamma a * (b * d * (1 + c * x) ^ 3) ^ (a - 1) * exp (-(d * (1 + c * x) ^ 3)))
      = 3 * (b * d) * c * (b⁻¹ ^ a / Gamma a) * ((b * d * (1 + c * x) ^ 3) ^ (a - 1) * (1 + c * x) ^ 2) *
        exp (-(d * (1 + c * x) ^ 3)) := by ring
    _ = _ := by rw [e2]; linear_combination (-(3 * (b * d) * c * (b⁻¹ ^ a / Gamma a) * (b * d) ^ (a - 1))) * e3

/-- law of the pair of numbers on which the exact test is made -/
noncomputable def mtPair (c : ℝ) : Measure (ℝ × ℝ) := ((gaussianReal 0 1)[|mtFirst c]).prod uniformLaw

instance (c : ℝ) : IsProbabilityMeasure ((gaussianReal 0 1)[|mtFirst c]) :=
  cond_isProbabilityMeasure (mtFirst_ne_zero c)

instance (c : ℝ) : IsProbabilityMeasure (mtPair c) := by unfold mtPair; infer_instance

theorem pair_integral {b d c : ℝ} (hd : 0 < d) (hc : 9 * d * c ^ 2 = 1) :
    ∃ κ : ℝ≥0∞, κ ≠ 0 ∧ κ ≠ ∞ ∧ ∀ f : ℝ → ℝ≥0∞, Measurable f →
      ∫⁻ p in mtSecond d c, f (b * d * (1 + c * p.1) ^ 3) ∂mtPair c = κ * mtInt b d c f := by
  refine ⟨(gaussianReal 0 1 (mtFirst c))⁻¹ * ENNReal.ofReal (sqrt (2 * π))⁻¹,
    mul_ne_zero (ENNReal.inv_ne_zero.2 (measure_ne_top _ _)) ?_,
    ENNReal.mul_ne_top (ENNReal.inv_ne_top.2 (mtFirst_ne_zero c)) ENNReal.ofReal_ne_top, fun f hf => ?_⟩
  · rw [Ne, ENNReal.ofReal_eq_zero, not_le]; positivity
  have hgm : Measurable fun x : ℝ => b * d * (1 + c * x) ^ 3 := by fun_prop
  have hfg : Measurable fun x : ℝ => f (b * d * (1 + c * x) ^ 3) := hf.comp hgm
  rw [← lintegral_indicator (measurableSet_mtSecond d c)]
  unfold mtPair
  have hpm : Measurable ((mtSecond d c).indicator fun p : ℝ × ℝ => f (b * d * (1 + c * p.1) ^ 3)) :=
    (hfg.comp measurable_fst).indicator (measurableSet_mtSecond d c)
  rw [lintegral_prod _ hpm.aemeasurable]
  have hin : ∀ x, x ∈ mtFirst c →
      ∫⁻ u, (mtSecond d c).indicator (fun p => f (b * d * (1 + c * p.1) ^ 3)) (x, u) ∂uniformLaw =
        ENNReal.ofReal (exp (mtH d c x)) * f (b * d * (1 + c * x) ^ 3) := by
    intro x hx
    have h1 : ∀ u, (mtSecond d c).indicator (fun p => f (b * d * (1 + c * p.1) ^ 3)) (x, u) =
        (Iio (exp (mtH d c x))).indicator (fun _ => f (b * d * (1 + c * x) ^ 3)) u := fun u => rfl
    simp only [h1]
    rw [lintegral_indicator measurableSet_Iio, setLIntegral_const, mul_comm]
    congr 1
    unfold uniformLaw
    rw [Measure.restrict_apply measurableSet_Iio]
    have h2 : Iio (exp (mtH d c x)) ∩ Ico 0 1 = Ico 0 (exp (mtH d c x)) := by
      ext u
      simp only [mem_inter_iff, mem_Iio, mem_Ico]
      have : exp (mtH d c x) ≤ 1 := exp_le_one_iff.2 (mtH_nonpos hd hc hx)
      constructor
      · rintro ⟨h, h', -⟩; exact ⟨h', h⟩
      · rintro ⟨h, h'⟩; exact ⟨h', h, by linarith⟩
    rw [h2, Real.volume_Ico, sub_zero]
  have hprod : Measurable fun x => ENNReal.ofReal (exp (mtH d c x)) * f (b * d * (1 + c * x) ^ 3) :=
    ((measurable_mtH d c).exp.ennreal_ofReal).mul hfg
  rw [ProbabilityTheory.cond, lintegral_smul_measure, smul_eq_mul, mul_assoc,
    setLIntegral_congr_fun (measurableSet_mtFirst c) hin, gaussianReal_of_var_ne_zero _ one_ne_zero,
    setLIntegral_withDensity_eq_setLIntegral_mul _ (measurable_gaussianPDF 0 1)
      hprod (measurableSet_mtFirst c)]
  congr 1
  unfold mtInt
  rw [← lintegral_const_mul' _ _ ENNReal.ofReal_ne_top]
  refine lintegral_congr fun x => ?_
  rw [Pi.mul_apply, ← mul_assoc, ← mul_assoc]
  congr 1
  unfold gaussianPDF gaussianPDFReal
  rw [← ENNReal.ofReal_mul (by positivity), ← ENNReal.ofReal_mul (by positivity)]
  congr 1
  rw [mul_assoc, ← exp_add]
  unfold mtH
  simp only [NNReal.coe_one, mul_one, sub_zero]
  congr 2
  ring

/-- **The method of Marsaglia and Tsang.**  -/
theorem marsaglia_tsang {a b d c : ℝ} (ha : 1 ≤ a) (hb : 0 < b) (hd : d = a - 1 / 3) (hc0 : 0 < c)
    (hc : 9 * d * c ^ 2 = 1) :
    mtPair c (mtSecond d c) ≠ 0 ∧
    MeasurePreserving (fun p : ℝ × ℝ => b * d * (1 + c * p.1) ^ 3) ((mtPair c)[|mtSecond d c])
      (gammaMeasure a b⁻¹) := by
  have hd0 : 0 < d := by rw [hd]; linarith
  obtain ⟨C, hC⟩ := gamma_change ha hb hd hc0
  obtain ⟨κ, h0, hfin, hκ⟩ := pair_integral (b := b) hd0 hc
  have := isProbabilityMeasure_gammaMeasure (by linarith : 0 < a) (inv_pos.2 hb)
  have hC1 : C * mtInt b d c 1 = 1 := by
    rw [← hC 1 measurable_one]; simp
  have hI0 : mtInt b d c 1 ≠ 0 := by rintro h; rw [h, mul_zero] at hC1; exact zero_ne_one hC1
  have hC0 : C ≠ 0 := by rintro rfl; rw [zero_mul] at hC1; exact zero_ne_one hC1
  have hIf : mtInt b d c 1 ≠ ∞ := by
    intro h; rw [h, ENNReal.mul_top hC0] at hC1; exact ENNReal.one_ne_top hC1.symm
  have hS : mtPair c (mtSecond d c) = κ * mtInt b d c 1 := by
    rw [← hκ 1 measurable_one]; simp
  have hm : Measurable fun p : ℝ × ℝ => b * d * (1 + c * p.1) ^ 3 := by fun_prop
  refine ⟨by rw [hS]; exact mul_ne_zero h0 hI0, hm, ?_⟩
  refine Measure.ext_of_lintegral _ fun f hf => ?_
  rw [lintegral_map hf hm, hC f hf, ProbabilityTheory.cond, lintegral_smul_measure, smul_eq_mul, hκ f hf, hS,
    ← mul_assoc]
  congr 1
  rw [ENNReal.mul_inv (.inl h0) (.inl hfin), mul_right_comm, ENNReal.inv_mul_cancel h0 hfin, one_mul]
  exact (ENNReal.eq_inv_of_mul_eq_one_left hC1).symm

theorem lintegral_exp_tail {b t : ℝ} (hb : 0 < b) :
    ∫⁻ y in Ioi t, ENNReal.ofReal (exp (-(b⁻¹ * y))) = ENNReal.ofReal (b * exp (-(b⁻¹ * t))) := by
  have hneg : -b⁻¹ < 0 := by simpa using hb
  have h1 := integral_exp_mul_Ioi hneg t
  have h2 := integrableOn_exp_mul_Ioi hneg t
  simp only [neg_mul] at h1 h2
  rw [← ofReal_integral_eq_lintegral_ofReal h2 (ae_of_all _ fun y => (exp_pos _).le), h1]
  congr 1
  field_simp

/-- a gamma number of shape `1 + a` times the `a`-th root of a uniform number is a gamma number of shape `a` -/
theorem gamma_boost {a b : ℝ} (ha : 0 < a) (hb : 0 < b) :
    MeasurePreserving (fun p : ℝ × ℝ => p.1 * p.2 ^ (1 / a)) ((gammaMeasure (1 + a) b⁻¹).prod uniformLaw)
      (gammaMeasure a b⁻¹) := by
  have hm : Measurable fun p : ℝ × ℝ => p.1 * p.2 ^ (1 / a) := by fun_prop
  refine ⟨hm, Measure.ext_of_lintegral _ fun f hf => ?_⟩
  have hpos : ∀ (a : ℝ) (f : ℝ → ℝ≥0∞), Measurable f →
      ∫⁻ y, f y ∂gammaMeasure a b⁻¹ = ∫⁻ y in Ioi 0, gammaPDF a b⁻¹ y * f y := by
    intro a f hf
    unfold gammaMeasure
    have hpm : Measurable (gammaPDF a b⁻¹) := (measurable_gammaPDFReal a b⁻¹).ennreal_ofReal
    rw [lintegral_withDensity_eq_lintegral_mul _ hpm hf]
    rw [← setLIntegral_congr (Ioi_ae_eq_Ici (a := (0 : ℝ))).symm, ← lintegral_indicator measurableSet_Ici]
    congr 1
    funext y
    by_cases hy : y ∈ Ici (0 : ℝ)
    · rw [indicator_of_mem hy]; rfl
    · rw [indicator_of_notMem hy, Pi.mul_apply, gammaPDF_of_neg (not_le.1 hy), zero_mul]
  have hin : ∀ y : ℝ, 0 < y → ∫⁻ u, f (y * u ^ (1 / a)) ∂uniformLaw =
      ∫⁻ t in Ioo 0 y, ENNReal.ofReal (a * t ^ (a - 1) * y ^ (-a)) * f t := by
    intro y hy
    unfold uniformLaw
    rw [setLIntegral_congr (Ioo_ae_eq_Ico (a := (0 : ℝ)) (b := 1)).symm]
    have hg : ∀ t ∈ Ioo 0 y, HasDerivWithinAt (fun t : ℝ => (t / y) ^ a) (a * t ^ (a - 1) * y ^ (-a)) (Ioo 0 y) t := by
      intro t ht
      have h1 : HasDerivAt (fun t : ℝ => t / y) (1 / y) t := (hasDerivAt_id t).div_const y
      have h2 := h1.rpow_const (p := a) (.inl (div_pos ht.1 hy).ne')
      refine (h2.congr_deriv ?_).hasDerivWithinAt
      rw [div_rpow ht.1.le hy.le, rpow_sub hy, rpow_neg hy.le, rpow_one]
      field_simp
    have hinj : InjOn (fun t : ℝ => (t / y) ^ a) (Ioo 0 y) := by
      intro t ht t' ht' h
      have h1 := (rpow_left_injOn ha.ne') (div_pos ht.1 hy).le (div_pos ht'.1 hy).le h
      field_simp at h1
      exact h1
    have himg : (fun t : ℝ => (t / y) ^ a) '' Ioo 0 y = Ioo 0 1 := by
      ext u
      constructor
      · rintro ⟨t, ht, rfl⟩
        exact ⟨rpow_pos_of_pos (div_pos ht.1 hy) _,
          rpow_lt_one (div_pos ht.1 hy).le ((div_lt_one hy).2 ht.2) ha⟩
      · intro hu
        have h1 : 0 < u ^ (1 / a) := rpow_pos_of_pos hu.1 _
        refine ⟨y * u ^ (1 / a), ⟨by positivity, ?_⟩, ?_⟩
        · have : u ^ (1 / a) < 1 := rpow_lt_one hu.1.le hu.2 (by positivity)
          nlinarith
        · show (y * u ^ (1 / a) / y) ^ a = u
          rw [mul_div_cancel_left₀ _ hy.ne', ← rpow_mul hu.1.le, one_div_mul_cancel ha.ne', rpow_one]
    rw [← himg, lintegral_image_eq_lintegral_abs_deriv_mul measurableSet_Ioo hg hinj]
    refine setLIntegral_congr_fun measurableSet_Ioo fun t ht => ?_
    have ht0 := ht.1
    show ENNReal.ofReal |a * t ^ (a - 1) * y ^ (-a)| * f (y * ((t / y) ^ a) ^ (1 / a)) = _
    rw [← rpow_mul (div_pos ht.1 hy).le, mul_one_div_cancel ha.ne', rpow_one, mul_div_cancel₀ _ hy.ne',
      abs_of_pos (by positivity)]
  have hG := Gamma_pos_of_pos ha
  have hfm : Measurable fun p : ℝ × ℝ => f (p.1 * p.2 ^ (1 / a)) := hf.comp hm
  rw [lintegral_map hf hm, lintegral_prod _ hfm.aemeasurable, hpos (1 + a) _ (hfm.lintegral_prod_right'),
    hpos a f hf]
  have h1 : ∫⁻ y in Ioi 0, gammaPDF (1 + a) b⁻¹ y * ∫⁻ u, f (y * u ^ (1 / a)) ∂uniformLaw =
      ∫⁻ y in Ioi (0 : ℝ), ∫⁻ t in Ioi (0 : ℝ), (Iio y).indicator
        (fun t => ENNReal.ofReal (b⁻¹ ^ (1 + a) / Gamma a * t ^ (a - 1) * exp (-(b⁻¹ * y))) * f t) t := by
    refine setLIntegral_congr_fun measurableSet_Ioi fun y hy => ?_
    have hy0 : 0 < y := hy
    show gammaPDF (1 + a) b⁻¹ y * ∫⁻ u, f (y * u ^ (1 / a)) ∂uniformLaw = _
    rw [hin y hy, lintegral_indicator measurableSet_Iio, Measure.restrict_restrict measurableSet_Iio,
      Set.inter_comm, Ioi_inter_Iio, gammaPDF_of_nonneg hy0.le, ← lintegral_const_mul' _ _ ENNReal.ofReal_ne_top]
    refine setLIntegral_congr_fun measurableSet_Ioo fun t ht => ?_
    have ht0 := ht.1
    have hG1 := Gamma_pos_of_pos (by linarith : 0 < 1 + a)
    show _ * (_ * f t) = _ * f t
    rw [← mul_assoc, ← ENNReal.ofReal_mul (by positivity)]
    congr 2
    rw [add_comm 1 a, Gamma_add_one ha.ne', add_sub_cancel_right, rpow_neg hy0.le]
    field_simp
  have hmeas : Measurable (Function.uncurry fun y t : ℝ => (Iio y).indicator
        (fun t => ENNReal.ofReal (b⁻¹ ^ (1 + a) / Gamma a * t ^ (a - 1) * exp (-(b⁻¹ * y))) * f t) t) := by
    have hset : MeasurableSet {p : ℝ × ℝ | p.2 < p.1} := measurableSet_lt measurable_snd measurable_fst
    have hk : Measurable fun p : ℝ × ℝ =>
        ENNReal.ofReal (b⁻¹ ^ (1 + a) / Gamma a * p.2 ^ (a - 1) * exp (-(b⁻¹ * p.1))) * f p.2 :=
      (Measurable.ennreal_ofReal (by fun_prop)).mul (hf.comp measurable_snd)
    exact hk.indicator hset
  rw [h1, lintegral_lintegral_swap hmeas.aemeasurable]
  refine setLIntegral_congr_fun measurableSet_Ioi fun t ht => ?_
  have ht0 : 0 < t := ht
  show _ = gammaPDF a b⁻¹ t * f t
  have h2 : ∀ y : ℝ, (Iio y).indicator
      (fun t => ENNReal.ofReal (b⁻¹ ^ (1 + a) / Gamma a * t ^ (a - 1) * exp (-(b⁻¹ * y))) * f t) t =
      (Ioi t).indicator
        (fun y => ENNReal.ofReal (b⁻¹ ^ (1 + a) / Gamma a * t ^ (a - 1)) * f t * ENNReal.ofReal (exp (-(b⁻¹ * y)))) y := by
    intro y
    by_cases h : t < y
    · rw [indicator_of_mem (by exact h), indicator_of_mem (by exact h), ENNReal.ofReal_mul (by positivity)]
      ring
    · rw [indicator_of_notMem (by exact h), indicator_of_notMem (by exact h)]
  simp only [h2]
  have hexp : Measurable fun y : ℝ => ENNReal.ofReal (exp (-(b⁻¹ * y))) := Measurable.ennreal_ofReal (by fun_prop)
  rw [lintegral_indicator measurableSet_Ioi, Measure.restrict_restrict measurableSet_Ioi, Ioi_inter_Ioi,
    sup_eq_left.2 ht0.le, lintegral_const_mul _ hexp, lintegral_exp_tail hb, mul_right_comm,
    ← ENNReal.ofReal_mul (by positivity), gammaPDF_of_nonneg ht0.le]
  congr 2
  rw [rpow_add (by positivity), rpow_one]
  field_simp

/-- scaling of a gamma number -/
theorem gamma_scale {a b : ℝ} (hb : 0 < b) :
    MeasurePreserving (fun y : ℝ => b * y) (gammaMeasure a 1) (gammaMeasure a b⁻¹) := by
  have hm : Measurable fun y : ℝ => b * y := by fun_prop
  refine ⟨hm, Measure.ext_of_lintegral _ fun f hf => ?_⟩
  have hpm : ∀ r, Measurable (gammaPDF a r) := fun r => (measurable_gammaPDFReal a r).ennreal_ofReal
  have hprod : Measurable fun z => gammaPDF a b⁻¹ z * f z := (hpm _).mul hf
  have hpdf : ∀ y, gammaPDF a 1 y = ENNReal.ofReal b * gammaPDF a b⁻¹ (b * y) := by
    intro y
    rcases lt_or_ge y 0 with hy | hy
    · rw [gammaPDF_of_neg hy, gammaPDF_of_neg (mul_neg_of_pos_of_neg hb hy), mul_zero]
    · rw [gammaPDF_of_nonneg hy, gammaPDF_of_nonneg (mul_nonneg hb.le hy), ← ENNReal.ofReal_mul hb.le]
      congr 1
      rw [mul_rpow hb.le hy, rpow_sub hb, rpow_one, inv_rpow hb.le, one_rpow, inv_mul_cancel_left₀ hb.ne', one_mul]
      have := rpow_pos_of_pos hb a
      field_simp
  rw [lintegral_map hf hm]
  unfold gammaMeasure
  have hfb : Measurable fun y => f (b * y) := hf.comp hm
  rw [lintegral_withDensity_eq_lintegral_mul _ (hpm 1) hfb,
    lintegral_withDensity_eq_lintegral_mul _ (hpm _) hf]
  have h1 : ∀ y, (gammaPDF a 1 * fun y => f (b * y)) y =
      ENNReal.ofReal b * (fun z => gammaPDF a b⁻¹ z * f z) (b * y) := by
    intro y
    rw [Pi.mul_apply, hpdf, mul_assoc]
  rw [lintegral_congr h1, lintegral_const_mul' _ _ ENNReal.ofReal_ne_top, ← lintegral_map hprod hm,
    Real.map_volume_mul_left hb.ne', lintegral_smul_measure, smul_eq_mul, ← mul_assoc, abs_of_pos (inv_pos.2 hb),
    ← ENNReal.ofReal_mul hb.le, mul_inv_cancel₀ hb.ne', ENNReal.ofReal_one, one_mul]
  rfl

theorem pi_dirac_one (m : ℕ) : (Measure.pi fun _ : Fin m => Measure.dirac (1 : ℝ)) = Measure.dirac fun _ => 1 := by
  classical
  refine Measure.pi_eq fun t ht => ?_
  rw [Measure.dirac_apply' _ (MeasurableSet.univ_pi ht)]
  simp only [Measure.dirac_apply' _ (ht _)]
  by_cases h : ∀ i, (1 : ℝ) ∈ t i
  · rw [indicator_of_mem (by simpa using h)]
    simp [h]
  · rw [indicator_of_notMem (by simpa using h)]
    obtain ⟨i, hi⟩ := not_forall.1 h
    exact (Finset.prod_eq_zero (Finset.mem_univ i) (by simp [hi])).symm

/-- replacing one coordinate by an independent draw -/
theorem measurePreserving_replace {m : ℕ} (ρ : Fin m → Measure ℝ) [∀ i, IsProbabilityMeasure (ρ i)] (j : Fin m)
    (γ : Measure ℝ) [IsProbabilityMeasure γ] :
    MeasurePreserving (fun p : ℝ × (Fin m → ℝ) => Function.update p.2 j p.1) (γ.prod (Measure.pi ρ))
      (Measure.pi fun i => if i = j then γ else ρ i) := by
  classical
  have hm : Measurable fun p : ℝ × (Fin m → ℝ) => Function.update p.2 j p.1 := by
    refine measurable_pi_iff.2 fun i => ?_
    by_cases h : i = j
    · subst h; simpa using measurable_fst
    · have h1 : Measurable fun p : ℝ × (Fin m → ℝ) => p.2 i := (measurable_pi_apply i).comp measurable_snd
      simpa [Function.update_of_ne h] using h1
  have hprob : ∀ i, IsProbabilityMeasure (if i = j then γ else ρ i) := fun i => by split <;> infer_instance
  refine ⟨hm, (Measure.pi_eq fun t ht => ?_).symm⟩
  rw [Measure.map_apply hm (MeasurableSet.univ_pi ht)]
  have hpre : (fun p : ℝ × (Fin m → ℝ) => Function.update p.2 j p.1) ⁻¹' Set.univ.pi t =
      t j ×ˢ Set.univ.pi fun i => if i = j then Set.univ else t i := by
    ext ⟨y, g⟩
    simp only [Set.mem_preimage, Set.mem_univ_pi, Set.mem_prod]
    constructor
    · intro h
      refine ⟨by simpa using h j, fun i => ?_⟩
      by_cases hi : i = j
      · simp [hi]
      · simpa [hi] using h i
    · rintro ⟨h1, h2⟩ i
      by_cases hi : i = j
      · subst hi; simpa using h1
      · simpa [hi] using h2 i
  rw [hpre, Measure.prod_prod, Measure.pi_pi, Fintype.prod_eq_mul_prod_compl j,
    Fintype.prod_eq_mul_prod_compl j fun i => (if i = j then γ else ρ i) (t i)]
  simp only [if_true, measure_univ, one_mul]
  congr 1
  refine Finset.prod_congr rfl fun i hi => ?_
  have : i ≠ j := by simpa using hi
  simp [this]

end Verif
