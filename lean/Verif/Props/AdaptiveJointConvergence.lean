import Verif.Lemmas.JointSettled
import Verif.Props.AdaptiveConvergence
import Verif.Props.AdaptiveJoint
import Verif.Props.JointConvergence

/-! # C139, C140: adaptive runs that sample the error variances converge to the joint posterior unless their
covariance collapses -/

set_option linter.unusedSectionVars false

namespace Verif
open XR MeasureTheory Function ProbabilityTheory
open scoped ENNReal

variable {σ : Type} [MeasurableSpace σ] {μ : Measure σ} {G : Rng σ XR} {N m : ℕ} {flags : Fin N → Bool}
  {specs : Fin N → ParamSpec XR} {q : (Fin (nS flags) → ℝ) → Fin m → ℝ} {r : (Fin (nS flags) → ℝ) → ℝ}
  {Nobs N0 S20 : Fin m → ℝ}

/-- the joint posterior is at most a multiple of uniform values with variances drawn given the values -/
theorem jointPosterior_le {M β : ℝ} (hbd : BoundedProblem flags specs q r N0 S20 M β) (hq : Measurable q)
    (hr : Measurable r) (hshapes : ∀ j, 0 < N0 j + Nobs j)
    (hrates : ∀ θ, InLimits flags specs (finVec θ) → ∀ j, 0 < N0 j * S20 j + q θ j) :
    ∃ Cm : ℝ≥0∞, Cm ≠ 0 ∧ Cm ≠ ⊤ ∧ ∀ E, MeasurableSet E → jointPosterior flags specs q r Nobs N0 S20 E ≤ Cm *
      ∫⁻ y in {θ | InLimits flags specs (finVec θ)}, ∫⁻ v, (∏ j, invGammaPDF (1 / 2 * (N0 j + Nobs j))
        ((N0 j * S20 j + q y j) / 2) (v j)) *
          E.indicator (1 : (Fin (nS flags) → ℝ) × (Fin m → ℝ) → ℝ≥0∞) (y, v) := by
  have ha : ∀ j, 0 < 1 / 2 * (N0 j + Nobs j) := fun j => by have := hshapes j; positivity
  have hSm := measurableSet_inLimits (flags := flags) specs
  have hb : Measurable fun (θ : Fin (nS flags) → ℝ) j => (N0 j * S20 j + q θ j) / 2 :=
    measurable_pi_iff.2 fun j => (((measurable_pi_apply j).comp hq).const_add _).div_const _
  refine ⟨ENNReal.ofReal (Real.exp (1 / 2 * M) *
    ∏ j, (Real.Gamma (1 / 2 * (N0 j + Nobs j)) / (β / 2) ^ (1 / 2 * (N0 j + Nobs j)))), ?_, ENNReal.ofReal_ne_top,
    fun E hE => ?_⟩
  · rw [Ne, ENNReal.ofReal_eq_zero, not_le]
    refine mul_pos (Real.exp_pos _) (Finset.prod_pos fun j _ => ?_)
    have hβ := hbd.pos
    exact div_pos (Real.Gamma_pos_of_pos (ha j)) (Real.rpow_pos_of_pos (by linarith) _)
  · rw [← lintegral_indicator_one hE, jointPosterior_lintegral hq hr hshapes hrates (measurable_one.indicator hE),
      ← lintegral_indicator hSm]
    have hm1 : Measurable fun z : (Fin (nS flags) → ℝ) × (Fin m → ℝ) =>
        (∏ j, invGammaPDF (1 / 2 * (N0 j + Nobs j)) ((N0 j * S20 j + q z.1 j) / 2) (z.2 j)) *
          E.indicator (1 : (Fin (nS flags) → ℝ) × (Fin m → ℝ) → ℝ≥0∞) (z.1, z.2) :=
      (Finset.measurable_prod _ fun j _ => (measurable_invGammaPDF _).comp
        (((measurable_pi_apply j).comp (hb.comp measurable_fst)).prodMk
          ((measurable_pi_apply j).comp measurable_snd))).mul (measurable_one.indicator hE)
    rw [← lintegral_const_mul _ (hm1.lintegral_prod_right'.indicator hSm)]
    refine lintegral_mono fun θ => ?_
    by_cases hθ : θ ∈ {θ | InLimits flags specs (finVec θ)}
    · rw [Set.indicator_of_mem hθ]
      exact mul_le_mul_left (valueFactor_le hbd hshapes θ) _
    · have hθ' : ¬ InLimits flags specs (finVec θ) := hθ
      simp [valueFactor, hθ']

/-- the transition of one iteration that also draws variances -/
noncomputable def jointMove [IsProbabilityMeasure μ] (D : IdealRng G (nS flags) μ) (specs : Fin N → ParamSpec XR)
    (q : (Fin (nS flags) → ℝ) → Fin m → ℝ) (r : (Fin (nS flags) → ℝ) → ℝ) (N0 S20 : Fin m → ℝ)
    (draw : σ → (Fin m → ℝ) × σ) (ds : List ℝ) (ntry : ℤ) (R : Fin (nS flags) → Fin (nS flags) → ℝ) :
    ((Fin (nS flags) → ℝ) × (Fin m → ℝ)) × σ → ((Fin (nS flags) → ℝ) × (Fin m → ℝ)) × σ :=
  varianceStep (fun θ j => (N0 j * S20 j + q θ j) / 2) draw ∘ factorStep D (logPost flags specs q r) ds ntry R

section move
variable [IsProbabilityMeasure μ] (D : IdealRng G (nS flags) μ) {draw : σ → (Fin m → ℝ) × σ} {ds : List ℝ} {ntry : ℤ}

theorem measurable_rates (hq : Measurable q) :
    Measurable fun (θ : Fin (nS flags) → ℝ) j => (N0 j * S20 j + q θ j) / 2 :=
  measurable_pi_iff.2 fun j => (((measurable_pi_apply j).comp hq).const_add _).div_const _

theorem measurable_jointMove (hq : Measurable q) (hr : Measurable r) (hdraw : Measurable draw) :
    Measurable fun p : (Fin (nS flags) → Fin (nS flags) → ℝ) × ((Fin (nS flags) → ℝ) × (Fin m → ℝ)) × σ =>
      jointMove D specs q r N0 S20 draw ds ntry p.1 p.2 :=
  (measurable_varianceStep (measurable_rates hq) hdraw).comp
    (measurable_factorStep D (measurable_logPost_density hq hr) ds ntry)

theorem fresh_jointMove (hq : Measurable q) (hr : Measurable r) (hds0 : ∀ d ∈ ds, d ≠ 0)
    (hshapes : ∀ j, 0 < N0 j + Nobs j)
    (hdraw : MeasurePreserving draw μ ((Measure.pi fun j => gammaMeasure (1 / 2 * (N0 j + Nobs j)) 1).prod μ))
    (R : Fin (nS flags) → Fin (nS flags) → ℝ) : Fresh μ (jointMove D specs q r N0 S20 draw ds ntry R) :=
  (fresh_varianceStep (measurable_rates hq) (fun j => by have := hshapes j; positivity) hdraw).comp
    (fresh_factorStep D (measurable_logPost_density hq hr) hds0 ntry R)

theorem jointMove_mem (R : Fin (nS flags) → Fin (nS flags) → ℝ) (p : (Fin (nS flags) → ℝ) × (Fin m → ℝ))
    (hp : InLimits flags specs (finVec p.1)) (s : σ) :
    InLimits flags specs (finVec (jointMove D specs q r N0 S20 draw ds ntry R (p, s)).1.1) :=
  factorStep_mem D (S := {θ | InLimits flags specs (finVec θ)}) (fun _ θ => logPost_some θ) R p hp s

theorem jointMove_invariant (hq : Measurable q) (hr : Measurable r) (hds0 : ∀ d ∈ ds, d ≠ 0)
    (hshapes : ∀ j, 0 < N0 j + Nobs j)
    (hrates : ∀ θ, InLimits flags specs (finVec θ) → ∀ j, 0 < N0 j * S20 j + q θ j)
    (hdraw : MeasurePreserving draw μ ((Measure.pi fun j => gammaMeasure (1 / 2 * (N0 j + Nobs j)) 1).prod μ))
    (R : Fin (nS flags) → Fin (nS flags) → ℝ) :
    MeasurePreserving (jointMove D specs q r N0 S20 draw ds ntry R)
      ((jointLaw flags specs q r Nobs N0 S20).prod μ) ((jointLaw flags specs q r Nobs N0 S20).prod μ) := by
  have hd := measurable_logPost_density (flags := flags) (specs := specs) hq hr
  have hf : Measurable fun p => ENNReal.ofReal (jointDensity flags specs q r Nobs N0 S20 p) :=
    (measurable_jointDensity hq hr).ennreal_ofReal
  have hmove := factorStep_invariant D (lp := logPost flags specs q r) (volume : Measure (Fin m → ℝ)) hd hds0 ntry
    (c := fun v => if ∀ j, 0 < v j then ENNReal.ofReal ((∏ j, v j ^ (-(Nobs j / 2))) *
        ∏ j, v j ^ (-(N0 j / 2) - 1) * Real.exp (-(N0 j * S20 j / (2 * v j)))) else 0) hf
    (fun p => jointDensity_values p) R
  have hvar := varianceStep_invariant (volume : Measure (Fin (nS flags) → ℝ)) (measurable_rates hq)
    (fun j => by have := hshapes j; positivity) hdraw (C := valueFactor flags specs q r Nobs N0 S20)
    (fun θ hθ j => by
      have hin : InLimits flags specs (finVec θ) := by
        by_contra hh
        exact hθ (if_neg hh)
      have := hrates θ hin j
      positivity) hf (fun p => jointDensity_variances hshapes hrates p)
  have hsf : SFinite (jointPosterior flags specs q r Nobs N0 S20) := by unfold jointPosterior; infer_instance
  exact MeasurePreserving.smul_left (π := jointPosterior flags specs q r Nobs N0 S20) (hvar.comp hmove) _

/-- two iterations with a factor within bounds -/
theorem jointMove_doeblin (hq : Measurable q) (hr : Measurable r) (hds0 : ∀ d ∈ ds, d ≠ 0)
    (hshapes : ∀ j, 0 < N0 j + Nobs j)
    (hrates : ∀ θ, InLimits flags specs (finVec θ) → ∀ j, 0 < N0 j * S20 j + q θ j)
    (hdraw : MeasurePreserving draw μ ((Measure.pi fun j => gammaMeasure (1 / 2 * (N0 j + Nobs j)) 1).prod μ))
    (hlim : FiniteLimits flags specs) {M β : ℝ} (hbd : BoundedProblem flags specs q r N0 S20 M β)
    {ρ τ : ℝ} (hρ : 0 < ρ) (hτ : 0 < τ) :
    ∃ ε : ℝ≥0∞, 0 < ε ∧ ε ≤ 1 ∧ ∀ R : Fin (nS flags) → Fin (nS flags) → ℝ, (Matrix.of R).det ≠ 0 →
      (∀ w, ρ ^ 2 * ∑ i, w i ^ 2 ≤ quadForm (Matrix.of R) w) →
      (∀ w, quadForm (Matrix.of R) w ≤ τ ^ 2 * ∑ i, w i ^ 2) →
      Doeblin μ (jointMove D specs q r N0 S20 draw ds ntry R) {p | InLimits flags specs (finVec p.1)} 2 ε
        (jointLaw flags specs q r Nobs N0 S20) := by
  have ha : ∀ j, 0 < 1 / 2 * (N0 j + Nobs j) := fun j => by have := hshapes j; positivity
  obtain ⟨hZ0, hZt, -⟩ := joint_mass hlim hbd hq hr hshapes
  set Z := jointPosterior flags specs q r Nobs N0 S20 Set.univ with hZ
  have hprob : IsProbabilityMeasure (jointLaw flags specs q r Nobs N0 S20) := ⟨by
    unfold jointLaw
    rw [Measure.smul_apply, smul_eq_mul, ← hZ, ENNReal.inv_mul_cancel hZ0 hZt]⟩
  obtain ⟨C, hC⟩ := hlim.bounded
  have hSm := measurableSet_inLimits (flags := flags) specs
  have hd := measurable_logPost_density (flags := flags) (specs := specs) hq hr
  have hbS : ∀ θ ∈ {θ | InLimits flags specs (finVec θ)}, ∀ j, 0 < (N0 j * S20 j + q θ j) / 2 := fun θ hθ j => by
    have := hrates θ hθ j
    linarith
  set lo := Real.exp (-(1 / 2) * (m * M) - 1 / 2 * M) with hlo
  set hi := Real.exp (1 / 2 * (m * M) + 1 / 2 * M) with hhi
  have hdens : ∀ v ∈ Set.Icc (1 : Fin m → ℝ) 2, ∀ θ ∈ {θ | InLimits flags specs (finVec θ)},
      lo ≤ (pointAt (logPost flags specs q r v) θ).density ∧
      (pointAt (logPost flags specs q r v) θ).density ≤ hi := by
    intro v hv θ hθ
    rw [logPost_density]
    unfold posteriorDensity
    rw [Set.indicator_of_mem hθ]
    have h1 : |∑ i, q θ i / v i| ≤ m * M := by
      calc |∑ i, q θ i / v i| ≤ ∑ i, |q θ i / v i| := Finset.abs_sum_le_sum_abs _ _
        _ ≤ ∑ _i : Fin m, M := Finset.sum_le_sum fun i _ => by
            have hv1 : 1 ≤ v i := hv.1 i
            rw [abs_div, abs_of_nonneg (by linarith : 0 ≤ v i)]
            exact (div_le_self (abs_nonneg _) hv1).trans (hbd.sos θ hθ i)
        _ = m * M := by simp
    have h2 := abs_le.1 h1
    have h3 := abs_le.1 (hbd.prior θ hθ)
    exact ⟨Real.exp_le_exp.2 (by linarith), Real.exp_le_exp.2 (by linarith)⟩
  set B := (∑ j, |N0 j * S20 j| + M) / 2 with hB
  set g0 : ℝ≥0∞ := ∏ j, ENNReal.ofReal ((β / 2) ^ (1 / 2 * (N0 j + Nobs j)) / Real.Gamma (1 / 2 * (N0 j + Nobs j)) *
    (2 ^ (-(1 / 2 * (N0 j + Nobs j)) - 1) * Real.exp (-B))) with hg0d
  have hg0pos : g0 ≠ 0 := by
    rw [hg0d, Finset.prod_ne_zero_iff]
    intro j _
    rw [Ne, ENNReal.ofReal_eq_zero, not_le]
    have := Real.Gamma_pos_of_pos (ha j)
    have hβ := hbd.pos
    positivity
  have hg0 : ∀ θ ∈ {θ | InLimits flags specs (finVec θ)}, ∀ v ∈ Set.Icc (1 : Fin m → ℝ) 2,
      g0 ≤ ∏ j, invGammaPDF (1 / 2 * (N0 j + Nobs j)) ((N0 j * S20 j + q θ j) / 2) (v j) := by
    intro θ hθ v hv
    refine Finset.prod_le_prod' fun j _ => ?_
    have hβ := hbd.pos
    refine invGamma_ge (ha j) (by linarith) ?_ ?_ (hv.1 j) (hv.2 j)
    · have := hbd.rate θ hθ j
      linarith
    · have h1 := (abs_le.1 (hbd.sos θ hθ j)).2
      have h2 := le_abs_self (N0 j * S20 j)
      have h3 : |N0 j * S20 j| ≤ ∑ j, |N0 j * S20 j| :=
        Finset.single_le_sum (f := fun j => |N0 j * S20 j|) (fun i _ => abs_nonneg _) (Finset.mem_univ j)
      rw [hB]
      linarith
  obtain ⟨ε1, hε1, hlow⟩ := jointStep_two D (ds := ds) (ntry := ntry) hd hds0 (measurable_rates hq) ha hdraw hSm
    (fun _ θ => logPost_some θ) hbS (fun x hx y hy => hC x y hx hy) (Real.exp_pos _) (Real.exp_pos _) hdens hg0 hg0pos
    hρ hτ
  obtain ⟨Cm, hCm0, hCmt, hCm⟩ := jointPosterior_le (Nobs := Nobs) hbd hq hr hshapes hrates
  refine ⟨min (ε1 * (Cm⁻¹ * Z)) 1, lt_min (ENNReal.mul_pos hε1.ne' (mul_ne_zero (ENNReal.inv_ne_zero.2 hCmt) hZ0))
    one_pos, min_le_right _ _, fun R hR hRl hRh => ?_⟩
  have hfT := fresh_jointMove D (specs := specs) (N0 := N0) (S20 := S20) (ntry := ntry) hq hr hds0 hshapes hdraw R
  refine ⟨hfT, measurable_fst hSm, fun p hp => ae_of_all _ fun s => jointMove_mem D R p hp s, two_pos, hprob,
    min_le_right _ _, fun p hp E hE => ?_⟩
  have h1 := hlow R hR hRl hRh (E.indicator 1) (measurable_one.indicator hE) p hp
  have e1 : expect μ (jointMove D specs q r N0 S20 draw ds ntry R) 2 (E.indicator 1) p =
      μ {s | ((jointMove D specs q r N0 S20 draw ds ntry R)^[2] (p, s)).1 ∈ E} := by
    have hm : MeasurableSet {s | ((jointMove D specs q r N0 S20 draw ds ntry R)^[2] (p, s)).1 ∈ E} :=
      hfT.measurable_row 2 p hE
    rw [← lintegral_indicator_one hm]
    rfl
  rw [show varianceStep _ draw ∘ factorStep D (logPost flags specs q r) ds ntry R =
    jointMove D specs q r N0 S20 draw ds ntry R from rfl, e1] at h1
  refine le_trans ?_ h1
  have e3 : Cm⁻¹ * jointPosterior flags specs q r Nobs N0 S20 E ≤
      ∫⁻ y in {θ | InLimits flags specs (finVec θ)}, ∫⁻ v, (∏ j, invGammaPDF (1 / 2 * (N0 j + Nobs j))
        ((N0 j * S20 j + q y j) / 2) (v j)) * E.indicator (1 : (Fin (nS flags) → ℝ) × (Fin m → ℝ) → ℝ≥0∞) (y, v) := by
    calc _ ≤ Cm⁻¹ * _ := mul_le_mul_right (hCm E hE) _
      _ = _ := by rw [← mul_assoc, ENNReal.inv_mul_cancel hCm0 hCmt, one_mul]
  refine le_trans ?_ (mul_le_mul_right e3 ε1)
  unfold jointLaw
  rw [Measure.smul_apply, smul_eq_mul, ← hZ]
  have hZZ : Z * Z⁻¹ = 1 := ENNReal.mul_inv_cancel hZ0 hZt
  calc min (ε1 * (Cm⁻¹ * Z)) 1 * (Z⁻¹ * jointPosterior flags specs q r Nobs N0 S20 E)
      ≤ ε1 * (Cm⁻¹ * Z) * (Z⁻¹ * jointPosterior flags specs q r Nobs N0 S20 E) :=
        mul_le_mul_left (min_le_left _ _) _
    _ = ε1 * (Cm⁻¹ * ((Z * Z⁻¹) * jointPosterior flags specs q r Nobs N0 S20 E)) := by ring
    _ = _ := by rw [hZZ, one_mul]

/-- adaptive processes that draw variances, for weights decided `K` rows earlier -/
theorem joint_weighted (hq : Measurable q) (hr : Measurable r) (hds0 : ∀ d ∈ ds, d ≠ 0) (hnt : ntry ≤ 2)
    (hshapes : ∀ j, 0 < N0 j + Nobs j)
    (hrates : ∀ θ, InLimits flags specs (finVec θ) → ∀ j, 0 < N0 j * S20 j + q θ j)
    (hdraw : MeasurePreserving draw μ ((Measure.pi fun j => gammaMeasure (1 / 2 * (N0 j + Nobs j)) 1).prod μ))
    (hlim : FiniteLimits flags specs) {M β : ℝ} (hbd : BoundedProblem flags specs q r N0 S20 M β)
    {x : Fin (nS flags) → ℝ} (hx : InLimits flags specs (finVec x)) {L : Lapack XR}
    (hL : TriangularFactor L (nS flags)) {adaptint : ℤ} (hai : 0 < adaptint) (adj : ℝ) {sc : ℝ} (hsc : 0 < sc)
    {e c : ℝ} (he : 0 < e) (hc : 0 < c) :
    ∃ K J : ℕ, K ≤ J ∧ ∀ (Q : Matrix (Fin (nS flags)) (Fin (nS flags)) ℝ) (R0 : Fin (nS flags) → Fin (nS flags) → ℝ)
      (v : Fin m → ℝ), ∀ j, J ≤ j →
      ∀ V : (ℕ → ((Fin (nS flags) → ℝ) × (Fin m → ℝ)) × (Fin (nS flags) → Fin (nS flags) → ℝ)) → ℝ≥0∞,
      Measurable V → (∀ h, V h ≤ 1) → (∀ h h', (∀ i ≤ j - K, h i = h' i) → V h = V h') →
      ∀ f : (Fin (nS flags) → ℝ) × (Fin m → ℝ) → ℝ≥0∞, Measurable f → (∀ y, f y ≤ 1) →
      |(∫⁻ s, V (histAfter (jointMove D specs q r N0 S20 draw ds ntry) (nextOf Prod.fst hL adaptint Q adj sc) (x, v) R0
          (j - K) s).1 * f ((histAfter (jointMove D specs q r N0 S20 draw ds ntry) (nextOf Prod.fst hL adaptint Q adj sc)
          (x, v) R0 j s).1 j).1 ∂μ).toReal - (∫⁻ y, f y ∂jointLaw flags specs q r Nobs N0 S20).toReal *
          (∫⁻ s, V (histAfter (jointMove D specs q r N0 S20 draw ds ntry) (nextOf Prod.fst hL adaptint Q adj sc) (x, v)
          R0 (j - K) s).1 ∂μ).toReal| ≤
        e + μ.real {s | ¬ ∀ w, c * ∑ i, w i ^ 2 ≤ w ⬝ᵥ (Matrix.mulVec (histCov (j - K) (valuesOf Prod.fst (histAfter
          (jointMove D specs q r N0 S20 draw ds ntry) (nextOf Prod.fst hL adaptint Q adj sc) (x, v) R0 (j - K)
          s).1)) w)} := by
  obtain ⟨hZ0, hZt, hZS⟩ := joint_mass hlim hbd hq hr hshapes
  have hprob : IsProbabilityMeasure (jointLaw flags specs q r Nobs N0 S20) := ⟨by
    unfold jointLaw
    rw [Measure.smul_apply, smul_eq_mul, ENNReal.inv_mul_cancel hZ0 hZt]⟩
  have hS0 : jointLaw flags specs q r Nobs N0 S20 {p | InLimits flags specs (finVec p.1)}ᶜ = 0 := by
    have h1 : jointLaw flags specs q r Nobs N0 S20 {p : (Fin (nS flags) → ℝ) × (Fin m → ℝ) |
        InLimits flags specs (finVec p.1) ∧ ∀ j, 0 < p.2 j}ᶜ = 0 := by
      unfold jointLaw
      rw [Measure.smul_apply, hZS, smul_zero]
    exact measure_mono_null (Set.compl_subset_compl.2 (show {p : (Fin (nS flags) → ℝ) × (Fin m → ℝ) |
      InLimits flags specs (finVec p.1) ∧ ∀ j, 0 < p.2 j} ⊆ {p | InLimits flags specs (finVec p.1)} from
      fun p hp => hp.1)) h1
  obtain ⟨a, b, -, hbox⟩ := hlim.box
  obtain ⟨C, hC0, hnear⟩ := jointStep_near D (ds := ds) (ntry := ntry)
    (measurable_logPost_density (flags := flags) (specs := specs) hq hr) hds0 hnt (measurable_rates (N0 := N0) (S20 := S20) hq)
    (a := fun j => 1 / 2 * (N0 j + Nobs j)) (fun j => by have := hshapes j; positivity) hdraw
  obtain ⟨K, J, hKJ, h⟩ := settled_process (pos := (Prod.fst : (Fin (nS flags) → ℝ) × (Fin m → ℝ) → _)) measurable_fst
    (measurable_jointMove D (specs := specs) (N0 := N0) (S20 := S20) (ds := ds) (ntry := ntry) hq hr hdraw.measurable)
    (fresh_jointMove D hq hr hds0 hshapes hdraw) (S0 := {p | InLimits flags specs (finVec p.1)})
    (fun R p hp s => jointMove_mem D R p hp s)
    (a := a) (b := b) (fun p hp i => by
      have : p.1 ∈ Set.Icc a b := by rw [← hbox]; exact hp
      exact ⟨this.1 i, this.2 i⟩) hC0
    (fun R₁ R₂ h₁ h₂ t ht ht1 hlo hhi g hg hg1 z _ => hnear R₁ R₂ h₁ h₂ t ht ht1 hlo hhi g hg hg1 z)
    (jointMove_invariant D hq hr hds0 hshapes hrates hdraw) hS0 two_pos
    (fun ρ τ hρ hτ => jointMove_doeblin D hq hr hds0 hshapes hrates hdraw hlim hbd hρ hτ) hL hai adj hsc he hc
  exact ⟨K, J, hKJ, fun Q R0 v => h Q R0 (x, v) hx⟩

end move

/-- the rows of the runs of every length are those of one process, which starts within the limits -/
theorem adaptive_joint_facts [IsProbabilityMeasure μ] {U : UserFuns XR N (nS flags) m} {L : Lapack XR}
    {opts : SimOpts XR} {extra : ExtraOpts XR (nS flags)} {ms : ModelSettings XR} {data : Data} {v : Fin m → ℝ}
    (H : ∀ k : ℤ, 1 < k → AdaptiveJointProblem U G L specs { opts with nsimu := k } extra ms data q r Nobs N0 S20 v)
    (D : IdealRng G (nS flags) μ) (D1 : IdealRng G 1 μ) (hall : ∀ k, flags k = true → (specs k).adapt = true) :
    ∃ (hL : TriangularFactor L (nS flags)) (ds : List ℝ) (ε sc : ℝ) (x : Fin (nS flags) → ℝ)
      (draw : σ → (Fin m → ℝ) × σ), (∀ d ∈ ds, d ≠ 0) ∧ 0 < sc ∧ InLimits flags specs (finVec x) ∧
      MeasurePreserving draw μ ((Measure.pi fun j => gammaMeasure (1 / 2 * (N0 j + Nobs j)) 1).prod μ) ∧
      ∀ k : ℤ, 1 < k → ∃ (R0 : Fin (nS flags) → Fin (nS flags) → ℝ) (Q : Matrix (Fin (nS flags)) (Fin (nS flags)) ℝ),
        (∀ᵐ s ∂μ, ∀ j i, 0 < ((histAfter (jointMove D specs q r N0 S20 draw ds opts.ntry)
          (nextOf Prod.fst hL opts.adaptint Q ε sc) (x, v) R0 j s).1 j).1.2 i) ∧
        ∀ᵐ s ∂μ, ∃ K, ∀ fuel, K ≤ fuel → ∃ out, ∃ (rows : List (Fin (nS flags) → ℝ)) (c : List (Vec XR m)),
          runSimulation U G L fuel (newObj specs { opts with nsimu := k } extra ms data) s false = .ok out ∧
          out.results.chain = rows.map finVec ∧ out.results.s2chain = some c ∧
          ∀ j : ℕ, (j : ℤ) < k →
            (∀ i ≤ j, rows[i]? = some ((histAfter (jointMove D specs q r N0 S20 draw ds opts.ntry)
              (nextOf Prod.fst hL opts.adaptint Q ε sc) (x, v) R0 j s).1 i).1.1) ∧
            c[j]? = some (finVec ((histAfter (jointMove D specs q r N0 S20 draw ds opts.ntry)
              (nextOf Prod.fst hL opts.adaptint Q ε sc) (x, v) R0 j s).1 j).1.2) := by
  obtain ⟨s0⟩ := nonempty_of_isProbabilityMeasure μ
  have H2 := H 2 (by norm_num)
  obtain ⟨ds, hds, hds0⟩ := H2.exact.drscale
  have hds : extra.drscale = ds.map .fin := hds
  obtain ⟨ε, hε⟩ := H2.exact.adjust
  have hε : extra.qcovAdjust = .fin ε := hε
  obtain ⟨sc, hsc⟩ := H2.exact.scale
  have hsc : IsScale opts.adascale (nS flags) sc := hsc
  have hn0 : 0 < nS flags := H2.valid.sampled
  have hsc0 : 0 < sc := by
    rcases hsc with ⟨-, rfl⟩ | ⟨-, h⟩
    · have : (0 : ℝ) < √(nS flags) := Real.sqrt_pos.2 (by exact_mod_cast hn0)
      positivity
    · exact h
  have hx : ∃ x : Fin (nS flags) → ℝ, ∀ i, (specs (parindOf flags i)).theta0 = .fin (x i) := by
    have := fun i => H2.valid.initial (parindOf flags i)
    choose x hx using this
    exact ⟨x, hx⟩
  obtain ⟨x, hx⟩ := hx
  have hx0 : InLimits flags specs (finVec x) := by
    intro i k hk
    have hik : parindOf flags i = k := by
      obtain ⟨_, hk⟩ := List.getElem?_eq_some_iff.1 hk
      exact hk
    subst hik
    have := limitsFit_of H2.valid.initial H2.valid.limits (parindOf flags i) (flags_parindOf i)
    change _ ∧ PyFloat.lt (specs _).theta0 _ = false ∧ PyFloat.lt _ (specs _).theta0 = false at this
    rw [hx i] at this
    exact this.2
  obtain ⟨NX, hNX⟩ : ∃ NX, checkSizeOfObservations (data.n.map fun k : ℕ => (ofInt k : XR)) m = .ok NX := by
    obtain ⟨I0, st0, t0, Q, hset0, -⟩ := valid_setup H2.exact H2.valid s0
    obtain ⟨ms1, c1, c2, c3⟩ := (setup_start hset0).1.init.ms
    obtain ⟨NX, -, e2⟩ := H2.settings.errModel H2.valid.observations H2.valid.settingsFresh c1 c2 c3
    exact ⟨NX, e2⟩
  have hNX' := fun j => observations_check H2.settings.obs hNX j
  obtain ⟨draw, hdraw, hae⟩ := updateErrorVariance_draw (S20 := S20) D1 H2.shapes NX hNX'
  have hno : noAdaptOf flags specs = fun _ => false := by
    funext i
    simp [noAdaptOf, hall _ (flags_parindOf i)]
  refine ⟨H2.triangular, ds, ε, sc, x, draw, hds0, hsc0, hx0, hdraw, fun k hk => ?_⟩
  have Hk := H k hk
  obtain ⟨I0, st0, t0, Q, hset0, ht0, hQ0, hpd⟩ := valid_setup Hk.exact Hk.valid s0
  obtain ⟨R0, hR0, hu0⟩ := (start_fin (fuel := 0) Hk.exact hset0 nofun Hk.valid.delayed ht0 hQ0 hpd).2.cov.R
  rw [(setup_start hset0).1.cov] at hR0
  have hT := measurable_jointMove D (specs := specs) (N0 := N0) (S20 := S20) (ds := ds) (ntry := opts.ntry)
    H2.measurable.1 H2.measurable.2 hdraw.measurable
  have hfT := fresh_jointMove D (specs := specs) (S20 := S20) (ntry := opts.ntry) H2.measurable.1 H2.measurable.2 hds0
    H2.shapes hdraw
  have hn : ∀ j, Measurable (nextOf (Prod.fst : (Fin (nS flags) → ℝ) × (Fin m → ℝ) → _) H2.triangular opts.adaptint Q
      ε sc j) := fun j => (measurable_nextFactor _ _ _ _ _ _ j).comp (measurable_valuesOf measurable_fst)
  have hd := measurable_logPost_density (flags := flags) (specs := specs) H2.measurable.1 H2.measurable.2
  have hall' := ae_all_iff.2 fun j => histAfter_ae hT hfT hn (measurable_factorStep D hd ds opts.ntry)
    (fresh_factorStep D hd hds0 opts.ntry) (x, v) (fun a b => R0 a b) j hae
  refine ⟨fun a b => R0 a b, Q, ?_, ?_⟩
  · filter_upwards [hall'] with s hs
    set Hs := histAfter (jointMove D specs q r N0 S20 draw ds opts.ntry)
      (nextOf Prod.fst H2.triangular opts.adaptint Q ε sc) (x, v) fun a b => R0 a b with hHs
    have hin : ∀ j, InLimits flags specs (finVec ((Hs j s).1 j).1.1) := by
      intro j
      induction j with
      | zero => exact hx0
      | succ j ih =>
        have : ((Hs (j + 1) s).1 (j + 1)).1 = (jointMove D specs q r N0 S20 draw ds opts.ntry ((Hs j s).1 j).2
            (((Hs j s).1 j).1, (Hs j s).2)).1 := by
          simp only [hHs, histAfter, histStep, update_self]
        rw [this]
        exact jointMove_mem D _ _ ih _
    intro j i
    cases j with
    | zero => exact H2.positive i
    | succ j =>
      have e : ((Hs (j + 1) s).1 (j + 1)).1 = (jointMove D specs q r N0 S20 draw ds opts.ntry ((Hs j s).1 j).2
          (((Hs j s).1 j).1, (Hs j s).2)).1 := by
        simp only [hHs, histAfter, histStep, update_self]
      have h1 := hin (j + 1)
      rw [e] at h1 ⊢
      refine div_pos (half_pos (H2.rates _ h1 i)) ((hs j).1 i)
  filter_upwards [hall'] with s hs
  choose hpos K hK using hs
  refine ⟨(Finset.range k.toNat).sup K, fun fuel hfuel => ?_⟩
  obtain ⟨out, ho, ⟨c, hc, hr⟩, -⟩ := adaptive_joint_rows Hk D hds hds0 hε hsc hx (R0 := R0) (Q := Q)
    (fun I st o1 hset => by
      rw [init_cov_const Hk.valid.noRestart hset hset0]
      exact ⟨hR0, hQ0⟩) hpd hNX
    (Hs := fun j => histAfter (jointMove D specs q r N0 S20 draw ds opts.ntry)
      (nextOf Prod.fst H2.triangular opts.adaptint Q ε sc) (x, v) (fun a b => R0 a b) j s)
    (fun j => by rw [hno]; rfl)
    (fun j hj s' hs' => by
      subst hs'
      exact ⟨hpos j, hK j fuel (le_trans (Finset.le_sup (f := K) (Finset.mem_range.2 hj)) hfuel)⟩)
  have hr : ∀ j : ℕ, (j : ℤ) < k → out.results.chain[j]? = some (finVec ((histAfter
      (jointMove D specs q r N0 S20 draw ds opts.ntry) (nextOf Prod.fst H2.triangular opts.adaptint Q ε sc) (x, v)
      (fun a b => R0 a b) j s).1 j).1.1) ∧ c[j]? = some (finVec ((histAfter
      (jointMove D specs q r N0 S20 draw ds opts.ntry) (nextOf Prod.fst H2.triangular opts.adaptint Q ε sc) (x, v)
      (fun a b => R0 a b) j s).1 j).1.2) := hr
  set Hs := histAfter (jointMove D specs q r N0 S20 draw ds opts.ntry)
    (nextOf Prod.fst H2.triangular opts.adaptint Q ε sc) (x, v) fun a b => R0 a b
  have hlen : (out.results.chain.length : ℤ) = k := (C02_chain_records_moves Hk.valid.noRestart ho).1
  refine ⟨out, (List.range k.toNat).map fun j => ((Hs j s).1 j).1.1, c, ho, ?_, hc, fun j hj => ⟨fun i hi => ?_, (hr j hj).2⟩⟩
  · apply List.ext_getElem?
    intro i
    by_cases hi : (i : ℤ) < k
    · rw [(hr i hi).1, List.map_map, List.getElem?_map, List.getElem?_range (by omega)]
      rfl
    · rw [List.getElem?_eq_none (by omega), List.getElem?_eq_none (by simp; omega)]
  · rw [List.getElem?_map, List.getElem?_range (by omega), show (Hs j s).1 i = (Hs i s).1 i from histAfter_stable hi s]
    rfl

/-- the event that the sample covariance of the first `l` rows of a run has collapsed, from the process -/
theorem collapse_ae {U : UserFuns XR N (nS flags) m} {L : Lapack XR} {opts : SimOpts XR}
    {extra : ExtraOpts XR (nS flags)} {ms : ModelSettings XR} {data : Data} {k : ℤ}
    {Hs : ℕ → σ → (ℕ → ((Fin (nS flags) → ℝ) × (Fin m → ℝ)) × (Fin (nS flags) → Fin (nS flags) → ℝ)) × σ}
    (h : ∀ᵐ s ∂μ, ∃ K, ∀ fuel, K ≤ fuel → ∃ out, ∃ (rows : List (Fin (nS flags) → ℝ)) (c : List (Vec XR m)),
      runSimulation U G L fuel (newObj specs opts extra ms data) s false = .ok out ∧
      out.results.chain = rows.map finVec ∧ out.results.s2chain = some c ∧
      ∀ j : ℕ, (j : ℤ) < k → (∀ i ≤ j, rows[i]? = some ((Hs j s).1 i).1.1) ∧ c[j]? = some (finVec ((Hs j s).1 j).1.2))
    {l : ℕ} (hl : (l : ℤ) < k) (c : ℝ) :
    μ.real {s | ∃ K, ∀ fuel, K ≤ fuel → ∃ out, ∃ rows : List (Fin (nS flags) → ℝ),
      runSimulation U G L fuel (newObj specs opts extra ms data) s false = .ok out ∧
      out.results.chain = rows.map finVec ∧
      ∃ w : Fin (nS flags) → ℝ, ∑ i, ∑ j, w i * sampleCov (rows.take l) i j * w j < c * ∑ i, w i ^ 2} =
    μ.real {s | ¬ ∀ w, c * ∑ i, w i ^ 2 ≤ w ⬝ᵥ (Matrix.mulVec (histCov l (valuesOf Prod.fst (Hs l s).1)) w)} := by
  refine measureReal_congr ?_
  filter_upwards [h] with s hs
  obtain ⟨K, hK⟩ := hs
  refine propext ⟨?_, fun hw => ⟨K, fun fuel hf => ?_⟩⟩
  · rintro ⟨K', hK'⟩
    obtain ⟨out, rows, c', ho, hr, -, hp⟩ := hK (max K K') (le_max_left _ _)
    obtain ⟨out', rows', ho', hr', w, hw⟩ := hK' (max K K') (le_max_right _ _)
    rw [ho] at ho'
    cases ho'
    rw [hr] at hr'
    obtain rfl := List.map_injective_iff.2 finVec_injective hr'
    have htake : sampleCovM (rows.take l) = histCov l (valuesOf Prod.fst (Hs l s).1) :=
      take_histCov fun i hi => (hp l hl).1 i hi.le
    change ¬ ∀ w, _
    rw [← htake]
    intro hall
    have := hall w
    rw [quad_sum] at this
    linarith
  · obtain ⟨out, rows, c', ho, hr, -, hp⟩ := hK fuel hf
    have htake : sampleCovM (rows.take l) = histCov l (valuesOf Prod.fst (Hs l s).1) :=
      take_histCov fun i hi => (hp l hl).1 i hi.le
    have hw : ¬ ∀ w, c * ∑ i, w i ^ 2 ≤ w ⬝ᵥ (Matrix.mulVec (histCov l (valuesOf Prod.fst (Hs l s).1)) w) := hw
    rw [← htake] at hw
    simp only [not_forall, not_le, quad_sum] at hw
    exact ⟨out, rows, ho, hr, hw⟩

theorem measurable_joint_row [IsProbabilityMeasure μ] (D : IdealRng G (nS flags) μ) {draw : σ → (Fin m → ℝ) × σ}
    {ds : List ℝ} {ntry adaptint : ℤ} (hq : Measurable q) (hr : Measurable r) (hds0 : ∀ d ∈ ds, d ≠ 0)
    (hshapes : ∀ j, 0 < N0 j + Nobs j)
    (hdraw : MeasurePreserving draw μ ((Measure.pi fun j => gammaMeasure (1 / 2 * (N0 j + Nobs j)) 1).prod μ))
    {L : Lapack XR} (hL : TriangularFactor L (nS flags)) (Q : Matrix (Fin (nS flags)) (Fin (nS flags)) ℝ) (ε sc : ℝ)
    (z : (Fin (nS flags) → ℝ) × (Fin m → ℝ)) (R0 : Fin (nS flags) → Fin (nS flags) → ℝ) (j : ℕ) :
    Measurable fun s => ((histAfter (jointMove D specs q r N0 S20 draw ds ntry)
      (nextOf Prod.fst hL adaptint Q ε sc) z R0 j s).1 j).1 :=
  measurable_fst.comp ((measurable_pi_apply j).comp (measurable_fst.comp (histAfter_fresh
    (measurable_jointMove D hq hr hdraw.measurable) (fresh_jointMove D hq hr hds0 hshapes hdraw)
    (fun j => (measurable_nextFactor _ _ _ _ _ _ j).comp (measurable_valuesOf measurable_fst)) z R0 j).1))

/-- the bound of Chebyshev's inequality -/
theorem average_bound {e η C csum : ℝ} {k K J : ℕ} (he : 0 < e) (hη : 0 < η) (hC : 0 < C) (hk0 : (0 : ℝ) < k)
    (hk : 8 * C ^ 2 * (1 + 2 * K + 2 * J) / (η ^ 2 * e) ≤ k) :
    4 * C ^ 2 * (k * (1 + 2 * K + 2 * J) + 2 * k * (2 * (∑ _j ∈ Finset.Ico J k, e * η ^ 2 / (32 * C ^ 2) +
      csum))) / (k ^ 2 * η ^ 2) ≤ e + 16 * C ^ 2 / η ^ 2 * (csum / k) := by
  have hle : ∑ _j ∈ Finset.Ico J k, e * η ^ 2 / (32 * C ^ 2) ≤ k * (e * η ^ 2 / (32 * C ^ 2)) := by
    rw [Finset.sum_const, Nat.card_Ico, nsmul_eq_mul]
    gcongr
    exact_mod_cast Nat.sub_le _ _
  have h1 : 4 * C ^ 2 * (k * (1 + 2 * K + 2 * J) + 2 * k * (2 * (∑ _j ∈ Finset.Ico J k, e * η ^ 2 / (32 * C ^ 2) +
      csum))) / (k ^ 2 * η ^ 2) ≤ 4 * C ^ 2 * (k * (1 + 2 * K + 2 * J) + 2 * k * (2 * (k * (e * η ^ 2 / (32 * C ^ 2)) +
      csum))) / (k ^ 2 * η ^ 2) := by gcongr
  refine h1.trans ?_
  have h2 : 4 * C ^ 2 * (k * (1 + 2 * K + 2 * J) + 2 * k * (2 * (k * (e * η ^ 2 / (32 * C ^ 2)) +
      csum))) / (k ^ 2 * η ^ 2) = 4 * C ^ 2 * (1 + 2 * K + 2 * J) / (η ^ 2 * k) + e / 2 +
        16 * C ^ 2 / η ^ 2 * (csum / k) := by
    field_simp
    ring
  rw [h2]
  have h3 : 4 * C ^ 2 * (1 + 2 * K + 2 * J) / (η ^ 2 * k) ≤ e / 2 := by
    rw [div_le_iff₀ (by positivity)] at hk ⊢
    linarith
  linarith

/-- **C139** adaptive runs that sample the error variances converge to the joint posterior unless their covariance
collapses.  Methods `am` and `dram` with at most two stages (the default), an adaptation interval, all
sampled parameters adapted, finite limits, and a sum of squares and a prior that are bounded within the
limits: for all `e, c > 0` there are `K` and `J` such that in runs of every length, for every row `j ≥ J` and
uniformly over all events, the law of the pair of row `j` of the chain and row `j` of the chain of
variances differs from the joint posterior by at most `e` plus the probability that the
sample covariance of the first `j - K` rows is in some direction below `c`.  -/
theorem C139_adaptive_joint_convergence [IsProbabilityMeasure μ] {U : UserFuns XR N (nS flags) m} {L : Lapack XR}
    {opts : SimOpts XR} {extra : ExtraOpts XR (nS flags)} {ms : ModelSettings XR} {data : Data} {v : Fin m → ℝ}
    (H : ∀ k : ℤ, 1 < k → AdaptiveJointProblem U G L specs { opts with nsimu := k } extra ms data q r Nobs N0 S20 v)
    (D : IdealRng G (nS flags) μ) (D1 : IdealRng G 1 μ) (hlim : FiniteLimits flags specs) {M β : ℝ}
    (hbd : BoundedProblem flags specs q r N0 S20 M β)
    (hntry : opts.ntry ≤ 2) (hai : 0 < opts.adaptint) (hall : ∀ k, flags k = true → (specs k).adapt = true)
    {e c : ℝ} (he : 0 < e) (hc : 0 < c) :
    ∃ K J : ℕ, K < J ∧ ∀ k : ℤ, 1 < k → ∀ j : ℕ, J ≤ j → (j : ℤ) < k →
      ∀ B : Set ((Fin (nS flags) → ℝ) × (Fin m → ℝ)), MeasurableSet B →
        |μ.real {s | ∃ F, ∀ fuel, F ≤ fuel → ∃ out c t w,
            runSimulation U G L fuel (newObj specs { opts with nsimu := k } extra ms data) s false = .ok out ∧
            out.results.s2chain = some c ∧ out.results.chain[j]? = some (finVec t) ∧
            c[j]? = some (finVec w) ∧ (t, w) ∈ B} -
          (jointPosterior flags specs q r Nobs N0 S20).real B /
            (jointPosterior flags specs q r Nobs N0 S20).real Set.univ| ≤
        e + μ.real {s | ∃ F, ∀ fuel, F ≤ fuel → ∃ out, ∃ rows : List (Fin (nS flags) → ℝ),
          runSimulation U G L fuel (newObj specs { opts with nsimu := k } extra ms data) s false = .ok out ∧
          out.results.chain = rows.map finVec ∧
          ∃ w : Fin (nS flags) → ℝ, ∑ i, ∑ l, w i * sampleCov (rows.take (j - K)) i l * w l < c * ∑ i, w i ^ 2} := by
  have H2 := H 2 (by norm_num)
  obtain ⟨hL, ds, ε, sc, x, draw, hds0, hsc0, hx0, hdraw, hproc⟩ := adaptive_joint_facts H D D1 hall
  obtain ⟨K, J, hKJ, hmain⟩ := joint_weighted D (specs := specs) (ds := ds) (ntry := opts.ntry) H2.measurable.1
    H2.measurable.2 hds0 hntry H2.shapes H2.rates hdraw hlim hbd hx0 hL hai ε hsc0 he hc
  refine ⟨K, J + 1, by omega, fun k hk j hj hjk B hB => ?_⟩
  obtain ⟨R0, Q, -, h⟩ := hproc k hk
  have main := hmain Q R0 v j (by omega) (fun _ => 1) measurable_const (fun _ => le_rfl) (fun _ _ _ => rfl)
    (B.indicator 1) (measurable_one.indicator hB) fun x => Set.indicator_le_self' (fun _ _ => zero_le) x
  have hmr := measurable_joint_row D (specs := specs) (N0 := N0) (S20 := S20) (ntry := opts.ntry) (adaptint := opts.adaptint)
    H2.measurable.1 H2.measurable.2 hds0 H2.shapes hdraw hL Q ε sc (x, v) R0
  set Hs := histAfter (jointMove D specs q r N0 S20 draw ds opts.ntry)
    (nextOf Prod.fst hL opts.adaptint Q ε sc) (x, v) R0 with hHs
  have e0 : ∫⁻ s, B.indicator (1 : (Fin (nS flags) → ℝ) × (Fin m → ℝ) → ℝ≥0∞) ((Hs j s).1 j).1 ∂μ =
      μ {s | ((Hs j s).1 j).1 ∈ B} := by
    refine Eq.trans ?_ (lintegral_indicator_one (hmr j hB))
    rfl
  simp only [one_mul, lintegral_const, measure_univ, mul_one, ENNReal.toReal_one, lintegral_indicator_one hB, e0] at main
  have e1 : {s | ∃ F, ∀ fuel, F ≤ fuel → ∃ out c t w,
      runSimulation U G L fuel (newObj specs { opts with nsimu := k } extra ms data) s false = .ok out ∧
      out.results.s2chain = some c ∧ out.results.chain[j]? = some (finVec t) ∧
      c[j]? = some (finVec w) ∧ (t, w) ∈ B} =ᵐ[μ] {s | ((Hs j s).1 j).1 ∈ B} := by
    filter_upwards [h] with s hs
    obtain ⟨F, hF⟩ := hs
    refine propext ⟨?_, fun hB' => ⟨F, fun fuel hf => ?_⟩⟩
    · rintro ⟨F', hF'⟩
      obtain ⟨out, rows, c, ho, hr, hc, hp⟩ := hF (max F F') (le_max_left _ _)
      obtain ⟨out', c', t, w, ho', hc', ht, hw, hB'⟩ := hF' (max F F') (le_max_right _ _)
      rw [ho] at ho'
      cases ho'
      rw [hc] at hc'
      cases hc'
      rw [hr, List.getElem?_map, (hp j hjk).1 j le_rfl] at ht
      rw [(hp j hjk).2] at hw
      have e1 : ((Hs j s).1 j).1.1 = t := finVec_injective (Option.some.inj ht)
      have e2 : ((Hs j s).1 j).1.2 = w := finVec_injective (Option.some.inj hw)
      change ((Hs j s).1 j).1 ∈ B
      rw [show ((Hs j s).1 j).1 = (t, w) from Prod.ext e1 e2]
      exact hB'
    · obtain ⟨out, rows, c, ho, hr, hc, hp⟩ := hF fuel hf
      refine ⟨out, c, _, _, ho, hc, ?_, (hp j hjk).2, hB'⟩
      rw [hr, List.getElem?_map, (hp j hjk).1 j le_rfl]
      rfl
  have e2 : (jointLaw flags specs q r Nobs N0 S20).real B = (jointPosterior flags specs q r Nobs N0 S20).real B /
      (jointPosterior flags specs q r Nobs N0 S20).real Set.univ := by
    unfold jointLaw Measure.real
    rw [Measure.smul_apply, smul_eq_mul, ENNReal.toReal_mul, ENNReal.toReal_inv, inv_mul_eq_div]
  rw [measureReal_congr e1, collapse_ae h (by omega) c, ← e2]
  exact main

/-- **C140** averages over both chains of adaptive runs that sample the error variances approach the means of the joint
posterior unless the covariance collapses.  For all `e, c, η, C > 0` there are `K`, `J` and `k₀` such that, for
runs of every length `k ≥ k₀` and every function `f` of values and variances bounded by `C`
within the limits, the average of `f` over the rows is within `η` of the posterior mean of `f`, except with
probability `e` plus `16 C²/η²` times the average over the rows `j` of the probability that the sample covariance of
the first `j - K` rows is in some direction below `c`. -/
theorem C140_adaptive_joint_averages [IsProbabilityMeasure μ] {U : UserFuns XR N (nS flags) m} {L : Lapack XR}
    {opts : SimOpts XR} {extra : ExtraOpts XR (nS flags)} {ms : ModelSettings XR} {data : Data} {v : Fin m → ℝ}
    (H : ∀ k : ℤ, 1 < k → AdaptiveJointProblem U G L specs { opts with nsimu := k } extra ms data q r Nobs N0 S20 v)
    (D : IdealRng G (nS flags) μ) (D1 : IdealRng G 1 μ) (hlim : FiniteLimits flags specs) {M β : ℝ}
    (hbd : BoundedProblem flags specs q r N0 S20 M β)
    (hntry : opts.ntry ≤ 2) (hai : 0 < opts.adaptint) (hall : ∀ k, flags k = true → (specs k).adapt = true)
    {e c η C : ℝ} (he : 0 < e) (hc : 0 < c) (hη : 0 < η) (hC : 0 < C) :
    ∃ K J k₀ : ℕ, K ≤ J ∧ ∀ k : ℕ, 1 < k → k₀ ≤ k →
      ∀ f : (Fin (nS flags) → ℝ) × (Fin m → ℝ) → ℝ, Measurable f →
      (∀ p, InLimits flags specs (finVec p.1) → (∀ j, 0 < p.2 j) → |f p| ≤ C) →
      1 - (e + 16 * C ^ 2 / η ^ 2 * ((∑ j ∈ Finset.Ico J k, μ.real {s | ∃ F, ∀ fuel, F ≤ fuel → ∃ out,
          ∃ rows : List (Fin (nS flags) → ℝ),
          runSimulation U G L fuel (newObj specs { opts with nsimu := k } extra ms data) s false = .ok out ∧
          out.results.chain = rows.map finVec ∧
          ∃ w : Fin (nS flags) → ℝ, ∑ i, ∑ l, w i * sampleCov (rows.take (j - K)) i l * w l < c * ∑ i, w i ^ 2}) / k)) ≤
        μ.real {s | ∃ F, ∀ fuel, F ≤ fuel → ∃ out c, ∃ t : ℕ → (Fin (nS flags) → ℝ) × (Fin m → ℝ),
          runSimulation U G L fuel (newObj specs { opts with nsimu := k } extra ms data) s false = .ok out ∧
          out.results.s2chain = some c ∧
          (∀ j : ℕ, j < k → out.results.chain[j]? = some (finVec (t j).1) ∧ c[j]? = some (finVec (t j).2)) ∧
          |(∑ j ∈ Finset.range k, f (t j)) / k - (∫ p, f p ∂jointPosterior flags specs q r Nobs N0 S20) /
            (jointPosterior flags specs q r Nobs N0 S20).real Set.univ| < η} := by
  have he' : 0 < e * η ^ 2 / (32 * C ^ 2) := by positivity
  have H2 := H 2 (by norm_num)
  obtain ⟨hZ0, hZt, hZS⟩ := joint_mass hlim hbd H2.measurable.1 H2.measurable.2 H2.shapes
  have hprob : IsProbabilityMeasure (jointLaw flags specs q r Nobs N0 S20) := ⟨by
    unfold jointLaw
    rw [Measure.smul_apply, smul_eq_mul, ENNReal.inv_mul_cancel hZ0 hZt]⟩
  have hS0 : jointLaw flags specs q r Nobs N0 S20 {p : (Fin (nS flags) → ℝ) × (Fin m → ℝ) |
      InLimits flags specs (finVec p.1) ∧ ∀ j, 0 < p.2 j}ᶜ = 0 := by
    unfold jointLaw
    rw [Measure.smul_apply, hZS, smul_zero]
  obtain ⟨hL, ds, ε, sc, x, draw, hds0, hsc0, hx0, hdraw, hproc⟩ := adaptive_joint_facts H D D1 hall
  obtain ⟨K, J, hKJ, hmain⟩ := joint_weighted D (specs := specs) (ds := ds) (ntry := opts.ntry) H2.measurable.1
    H2.measurable.2 hds0 hntry H2.shapes H2.rates hdraw hlim hbd hx0 hL hai ε hsc0 he' hc
  obtain ⟨k₀, hk₀⟩ := exists_nat_ge (8 * C ^ 2 * (1 + 2 * K + 2 * J) / (η ^ 2 * e))
  refine ⟨K, J, k₀, hKJ, fun k hk hkk f hf hfC => ?_⟩
  obtain ⟨R0, Q, hvpos, h⟩ := hproc k (by exact_mod_cast hk)
  have hmom := moment_of_weighted (π := jointLaw flags specs q r Nobs N0 S20)
    (measurable_jointMove D (specs := specs) (N0 := N0) (S20 := S20) (ds := ds) (ntry := opts.ntry) H2.measurable.1
      H2.measurable.2 hdraw.measurable)
    (fresh_jointMove D H2.measurable.1 H2.measurable.2 hds0 H2.shapes hdraw)
    (next := nextOf Prod.fst hL opts.adaptint Q ε sc)
    (fun j => (measurable_nextFactor _ _ _ _ _ _ j).comp (measurable_valuesOf measurable_fst)) (x, v) R0
    (fun j => add_nonneg he'.le measureReal_nonneg) (hmain Q R0 v) k
  have hmr := measurable_joint_row D (specs := specs) (N0 := N0) (S20 := S20) (ntry := opts.ntry) (adaptint := opts.adaptint)
    H2.measurable.1 H2.measurable.2 hds0 H2.shapes hdraw hL Q ε sc (x, v) R0
  set Hs := histAfter (jointMove D specs q r N0 S20 draw ds opts.ntry)
    (nextOf Prod.fst hL opts.adaptint Q ε sc) (x, v) R0 with hHs
  have hin : ∀ j s, InLimits flags specs (finVec ((Hs j s).1 j).1.1) := by
    intro j s
    induction j with
    | zero => exact hx0
    | succ j ih =>
      have : ((Hs (j + 1) s).1 (j + 1)).1 = (jointMove D specs q r N0 S20 draw ds opts.ntry ((Hs j s).1 j).2
          (((Hs j s).1 j).1, (Hs j s).2)).1 := by
        simp only [hHs, histAfter, histStep, update_self]
      rw [this]
      exact jointMove_mem D _ _ ih _
  -- the function where the variances are positive
  let P : Set ((Fin (nS flags) → ℝ) × (Fin m → ℝ)) := {p | ∀ j, 0 < p.2 j}
  have hP : MeasurableSet P := by
    have : P = ⋂ j, {p : (Fin (nS flags) → ℝ) × (Fin m → ℝ) | 0 < p.2 j} := by ext p; simp [P]
    rw [this]
    exact MeasurableSet.iInter fun j => measurableSet_lt measurable_const ((measurable_pi_apply j).comp measurable_snd)
  have hS1 : jointLaw flags specs q r Nobs N0 S20 {p | InLimits flags specs (finVec p.1)}ᶜ = 0 :=
    measure_mono_null (Set.compl_subset_compl.2 (show {p : (Fin (nS flags) → ℝ) × (Fin m → ℝ) |
      InLimits flags specs (finVec p.1) ∧ ∀ j, 0 < p.2 j} ⊆ {p | InLimits flags specs (finVec p.1)} from
      fun p hp => hp.1)) hS0
  have hk0 : (0 : ℝ) < k := by exact_mod_cast (by omega : 0 < k)
  have hav := average_of_moment (μ := μ) (π := jointLaw flags specs q r Nobs N0 S20) hmr
    (S := {p | InLimits flags specs (finVec p.1)}) hin hS1 (by omega : 0 < k)
    hmom (hf.indicator hP) hC (fun p hp => by
      by_cases hpP : p ∈ P
      · rw [Set.indicator_of_mem hpP]
        exact hfC p hp hpP
      · rw [Set.indicator_of_notMem hpP, abs_zero]
        exact hC.le) hη
  have e2 : ∫ p, P.indicator f p ∂jointLaw flags specs q r Nobs N0 S20 =
      (∫ p, f p ∂jointPosterior flags specs q r Nobs N0 S20) /
      (jointPosterior flags specs q r Nobs N0 S20).real Set.univ := by
    have h1 : ∫ p, P.indicator f p ∂jointLaw flags specs q r Nobs N0 S20 =
        ∫ p, f p ∂jointLaw flags specs q r Nobs N0 S20 := by
      have hae : ∀ᵐ p ∂jointLaw flags specs q r Nobs N0 S20, p ∈ {p : (Fin (nS flags) → ℝ) × (Fin m → ℝ) |
        InLimits flags specs (finVec p.1) ∧ ∀ j, 0 < p.2 j} := hS0
      refine integral_congr_ae (hae.mono fun p hp => ?_)
      exact Set.indicator_of_mem (show p ∈ P from hp.2) f
    rw [h1]
    unfold jointLaw Measure.real
    rw [integral_smul_measure, ENNReal.toReal_inv, smul_eq_mul, inv_mul_eq_div]
  rw [e2] at hav
  set p := (∫ p, f p ∂jointPosterior flags specs q r Nobs N0 S20) /
    (jointPosterior flags specs q r Nobs N0 S20).real Set.univ
  have hcol : ∀ j ∈ Finset.Ico J k, μ.real {s | ∃ F, ∀ fuel, F ≤ fuel → ∃ out,
      ∃ rows : List (Fin (nS flags) → ℝ),
      runSimulation U G L fuel (newObj specs { opts with nsimu := k } extra ms data) s false = .ok out ∧
      out.results.chain = rows.map finVec ∧
      ∃ w : Fin (nS flags) → ℝ, ∑ i, ∑ l, w i * sampleCov (rows.take (j - K)) i l * w l < c * ∑ i, w i ^ 2} =
      μ.real {s | ¬ ∀ w, c * ∑ i, w i ^ 2 ≤
        w ⬝ᵥ (Matrix.mulVec (histCov (j - K) (valuesOf Prod.fst (Hs (j - K) s).1)) w)} := by
    intro j hj
    have := (Finset.mem_Ico.1 hj).2
    exact collapse_ae h (by omega) c
  rw [Finset.sum_congr rfl hcol]
  rw [← Finset.mul_sum, Finset.sum_add_distrib] at hav
  set csum := ∑ j ∈ Finset.Ico J k, μ.real {s | ¬ ∀ w, c * ∑ i, w i ^ 2 ≤
    w ⬝ᵥ (Matrix.mulVec (histCov (j - K) (valuesOf Prod.fst (Hs (j - K) s).1)) w)}
  have hbound := average_bound (k := k) (K := K) (J := J) (csum := csum) he hη hC hk0 (hk₀.trans (by exact_mod_cast hkk))
  have hm : Measurable fun s => |(∑ j ∈ Finset.range k, P.indicator f ((Hs j s).1 j).1) / k - p| := by
    have h1 : Measurable fun s => ∑ j ∈ Finset.range k, P.indicator f ((Hs j s).1 j).1 :=
      Finset.measurable_sum _ fun j _ => (hf.indicator hP).comp (hmr j)
    exact ((h1.div_const _).sub_const _).abs
  have hms : MeasurableSet {s | η ≤ |(∑ j ∈ Finset.range k, P.indicator f ((Hs j s).1 j).1) / k - p|} :=
    measurableSet_le measurable_const hm
  have hc' := probReal_compl_eq_one_sub (μ := μ) hms
  calc 1 - (e + 16 * C ^ 2 / η ^ 2 * (csum / k))
      ≤ 1 - μ.real {s | η ≤ |(∑ j ∈ Finset.range k, P.indicator f ((Hs j s).1 j).1) / k - p|} := by
        linarith [hav.trans hbound]
    _ = μ.real {s | η ≤ |(∑ j ∈ Finset.range k, P.indicator f ((Hs j s).1 j).1) / k - p|}ᶜ := hc'.symm
    _ ≤ _ := by
      refine ENNReal.toReal_mono (measure_ne_top _ _) (measure_mono_ae ?_)
      filter_upwards [h, hvpos] with s hs hv hsmall
      obtain ⟨F, hF⟩ := hs
      refine ⟨F, fun fuel hfu => ?_⟩
      obtain ⟨out, rows, c, ho, hr, hc, hp⟩ := hF fuel hfu
      refine ⟨out, c, fun j => ((Hs j s).1 j).1, ho, hc, fun j hj => ⟨?_, (hp j (by exact_mod_cast hj)).2⟩, ?_⟩
      · rw [hr, List.getElem?_map, (hp j (by exact_mod_cast hj)).1 j le_rfl]
        rfl
      · have h1 : ∀ j, P.indicator f ((Hs j s).1 j).1 = f ((Hs j s).1 j).1 := fun j =>
          Set.indicator_of_mem (show ((Hs j s).1 j).1 ∈ P from hv j) f
        have h2 : ¬ η ≤ |(∑ j ∈ Finset.range k, P.indicator f ((Hs j s).1 j).1) / k - p| := hsmall
        simp only [h1, not_le] at h2
        exact h2

/-! ### Examples -/

/-- C139 for the problem of C131, with the default delayed rejection and adaptation every 100 iterations: the law of the
last value and the last variance of a run. -/
example : ∃ K J : ℕ, K < J ∧ ∀ j : ℕ, 0 < j → J ≤ j →
    |(coinLaw (nS XRun.flags)).real {s | ∃ F, ∀ fuel, F ≤ fuel → ∃ out c t w,
        runSimulation XRun.user (coinRng (nS XRun.flags)) choleskyLapack fuel
          (newObj (m := 1) (XRun.specs true)
            (defineSimulationOptions { nsimu := j + 1, method := .dram, updatesigma := true })
            (XRun.extra 1 1) (XRun.settingsAt fun _ => 2) XRun.data) s false = .ok out ∧
        out.results.s2chain = some c ∧ out.results.chain[j]? = some (finVec t) ∧ c[j]? = some (finVec w) ∧
        (t, w) ∈ {z : (Fin (nS XRun.flags) → ℝ) × (Fin 1 → ℝ) | z.1 ⟨0, by decide⟩ ≤ 1 ∧ z.2 0 ≤ 1}} -
      (jointPosterior (m := 1) XRun.flags (XRun.specs true) (fun θ _ => θ ⟨0, by decide⟩ * θ ⟨0, by decide⟩)
          (fun _ => 0) (fun _ => 5) (fun _ => 1) (fun _ => 1)).real
        {z : (Fin (nS XRun.flags) → ℝ) × (Fin 1 → ℝ) | z.1 ⟨0, by decide⟩ ≤ 1 ∧ z.2 0 ≤ 1} /
      (jointPosterior (m := 1) XRun.flags (XRun.specs true) (fun θ _ => θ ⟨0, by decide⟩ * θ ⟨0, by decide⟩)
          (fun _ => 0) (fun _ => 5) (fun _ => 1) (fun _ => 1)).real Set.univ| ≤
    1 / 100 + (coinLaw (nS XRun.flags)).real {s | ∃ F, ∀ fuel, F ≤ fuel → ∃ out,
        ∃ rows : List (Fin (nS XRun.flags) → ℝ),
        runSimulation XRun.user (coinRng (nS XRun.flags)) choleskyLapack fuel
          (newObj (m := 1) (XRun.specs true)
            (defineSimulationOptions { nsimu := j + 1, method := .dram, updatesigma := true })
            (XRun.extra 1 1) (XRun.settingsAt fun _ => 2) XRun.data) s false = .ok out ∧
        out.results.chain = rows.map finVec ∧
        ∃ w : Fin (nS XRun.flags) → ℝ, ∑ i, ∑ l, w i * sampleCov (rows.take (j - K)) i l * w l <
          1 / 10 * ∑ i, w i ^ 2} := by
  have D1 : IdealRng (coinRng (nS XRun.flags)) 1 (coinLaw (nS XRun.flags)) := by
    rw [XRun.nS_flags]; exact coinIdeal 1
  obtain ⟨K, J, h0, h⟩ := C139_adaptive_joint_convergence
    (opts := defineSimulationOptions { nsimu := 2, method := .dram, updatesigma := true }) XRun.adaptiveJointProblem
    (coinIdeal _) D1 XRun.finiteLimits XRun.boundedProblem (show (2 : ℤ) ≤ 2 by decide)
    (show (0 : ℤ) < 100 by decide) (fun _ _ => rfl) (e := 1 / 100) (c := 1 / 10) (by norm_num) (by norm_num)
  refine ⟨K, J, h0, fun j hj hJ => h (j + 1) (by omega) j hJ (by omega) _ ?_⟩
  exact (measurableSet_le ((measurable_pi_apply _).comp measurable_fst) measurable_const).inter
      (measurableSet_le ((measurable_pi_apply _).comp measurable_snd) measurable_const)

/-- C140 for that problem: the fraction of rows whose variance is at most 1. -/
example : ∃ K J k₀ : ℕ, K ≤ J ∧ ∀ k : ℕ, 1 < k → k₀ ≤ k →
    1 - (1 / 100 + 16 * 1 ^ 2 / (1 / 10) ^ 2 * ((∑ j ∈ Finset.Ico J k, (coinLaw (nS XRun.flags)).real
        {s | ∃ F, ∀ fuel, F ≤ fuel → ∃ out, ∃ rows : List (Fin (nS XRun.flags) → ℝ),
        runSimulation XRun.user (coinRng (nS XRun.flags)) choleskyLapack fuel
          (newObj (m := 1) (XRun.specs true)
            (defineSimulationOptions { nsimu := k, method := .dram, updatesigma := true })
            (XRun.extra 1 1) (XRun.settingsAt fun _ => 2) XRun.data) s false = .ok out ∧
        out.results.chain = rows.map finVec ∧
        ∃ w : Fin (nS XRun.flags) → ℝ, ∑ i, ∑ l, w i * sampleCov (rows.take (j - K)) i l * w l <
          1 / 10 * ∑ i, w i ^ 2}) / k)) ≤
      (coinLaw (nS XRun.flags)).real {s | ∃ F, ∀ fuel, F ≤ fuel → ∃ out c,
        ∃ t : ℕ → (Fin (nS XRun.flags) → ℝ) × (Fin 1 → ℝ),
        runSimulation XRun.user (coinRng (nS XRun.flags)) choleskyLapack fuel
          (newObj (m := 1) (XRun.specs true)
            (defineSimulationOptions { nsimu := k, method := .dram, updatesigma := true })
            (XRun.extra 1 1) (XRun.settingsAt fun _ => 2) XRun.data) s false = .ok out ∧
        out.results.s2chain = some c ∧
        (∀ j : ℕ, j < k → out.results.chain[j]? = some (finVec (t j).1) ∧ c[j]? = some (finVec (t j).2)) ∧
        |(∑ j ∈ Finset.range k, Set.indicator {z : (Fin (nS XRun.flags) → ℝ) × (Fin 1 → ℝ) | z.2 0 ≤ 1}
            (fun _ => (1 : ℝ)) (t j)) / k -
          (∫ z, Set.indicator {z : (Fin (nS XRun.flags) → ℝ) × (Fin 1 → ℝ) | z.2 0 ≤ 1}
            (fun _ => (1 : ℝ)) z
            ∂(jointPosterior (m := 1) XRun.flags (XRun.specs true) (fun θ _ => θ ⟨0, by decide⟩ * θ ⟨0, by decide⟩)
          (fun _ => 0) (fun _ => 5) (fun _ => 1) (fun _ => 1))) /
          (jointPosterior (m := 1) XRun.flags (XRun.specs true) (fun θ _ => θ ⟨0, by decide⟩ * θ ⟨0, by decide⟩)
          (fun _ => 0) (fun _ => 5) (fun _ => 1) (fun _ => 1)).real Set.univ| < 1 / 10} := by
  have D1 : IdealRng (coinRng (nS XRun.flags)) 1 (coinLaw (nS XRun.flags)) := by
    rw [XRun.nS_flags]; exact coinIdeal 1
  obtain ⟨K, J, k₀, h0, h⟩ := C140_adaptive_joint_averages
    (opts := defineSimulationOptions { nsimu := 2, method := .dram, updatesigma := true }) XRun.adaptiveJointProblem
    (coinIdeal _) D1 XRun.finiteLimits XRun.boundedProblem (show (2 : ℤ) ≤ 2 by decide)
    (show (0 : ℤ) < 100 by decide) (fun _ _ => rfl) (e := 1 / 100) (c := 1 / 10) (η := 1 / 10) (C := 1)
    (by norm_num) (by norm_num) (by norm_num) one_pos
  refine ⟨K, J, k₀, h0, fun k hk hkk => h k hk hkk (Set.indicator {z | z.2 0 ≤ 1} fun _ => 1) ?_ ?_⟩
  · exact measurable_const.indicator (measurableSet_le ((measurable_pi_apply _).comp measurable_snd) measurable_const)
  · intro z _ _
    by_cases hz : z.2 0 ≤ 1
    · rw [Set.indicator_of_mem (by exact hz)]; simp
    · rw [Set.indicator_of_notMem (by exact hz)]; simp

end Verif
