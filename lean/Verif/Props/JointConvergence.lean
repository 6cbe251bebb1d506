import Verif.Props.Convergence
import Verif.Lemmas.JointLower

/-! # Long chains represent the joint posterior of parameters and error variances

C87: the law of the pair of row `j` of the chain and of the chain of variances approaches the joint posterior
geometrically, from every start.  C88: averages along both chains approach the posterior means. -/

set_option linter.unusedSectionVars false

namespace Verif
open MeasureTheory Function ProbabilityTheory
open scoped ENNReal Matrix

section mass
variable {N m : ℕ} {flags : Fin N → Bool} {specs : Fin N → ParamSpec XR}
  {q : (Fin (nS flags) → ℝ) → Fin m → ℝ} {r : (Fin (nS flags) → ℝ) → ℝ} {Nobs N0 S20 : Fin m → ℝ}

/-- On the limits the sums of squares and the prior are bounded, and the rates of the variances are bounded
away from zero. -/
structure BoundedProblem (flags : Fin N → Bool) (specs : Fin N → ParamSpec XR)
    (q : (Fin (nS flags) → ℝ) → Fin m → ℝ) (r : (Fin (nS flags) → ℝ) → ℝ) (N0 S20 : Fin m → ℝ) (M β : ℝ) : Prop where
  sos : ∀ θ, InLimits flags specs (finVec θ) → ∀ j, |q θ j| ≤ M
  prior : ∀ θ, InLimits flags specs (finVec θ) → |r θ| ≤ M
  pos : 0 < β
  rate : ∀ θ, InLimits flags specs (finVec θ) → ∀ j, β ≤ N0 j * S20 j + q θ j

open Classical in
/-- factor of the joint density that depends on the values only -/
noncomputable def valueFactor (flags : Fin N → Bool) (specs : Fin N → ParamSpec XR)
    (q : (Fin (nS flags) → ℝ) → Fin m → ℝ) (r : (Fin (nS flags) → ℝ) → ℝ) (Nobs N0 S20 : Fin m → ℝ)
    (θ : Fin (nS flags) → ℝ) : ℝ≥0∞ :=
  if InLimits flags specs (finVec θ) then ENNReal.ofReal (Real.exp (-(1 / 2) * r θ) *
    ∏ j, (Real.Gamma (1 / 2 * (N0 j + Nobs j)) /
      ((N0 j * S20 j + q θ j) / 2) ^ (1 / 2 * (N0 j + Nobs j)))) else 0

theorem jointPosterior_lintegral (hq : Measurable q) (hr : Measurable r) (hshape : ∀ j, 0 < N0 j + Nobs j)
    (hrate : ∀ θ, InLimits flags specs (finVec θ) → ∀ j, 0 < N0 j * S20 j + q θ j)
    {g : (Fin (nS flags) → ℝ) × (Fin m → ℝ) → ℝ≥0∞} (hg : Measurable g) :
    ∫⁻ p, g p ∂jointPosterior flags specs q r Nobs N0 S20 =
      ∫⁻ θ, valueFactor flags specs q r Nobs N0 S20 θ *
        ∫⁻ v, (∏ j, invGammaPDF (1 / 2 * (N0 j + Nobs j)) ((N0 j * S20 j + q θ j) / 2) (v j)) * g (θ, v) := by
  have hf : Measurable fun p => ENNReal.ofReal (jointDensity flags specs q r Nobs N0 S20 p) :=
    (measurable_jointDensity hq hr).ennreal_ofReal
  unfold jointPosterior
  rw [lintegral_withDensity_eq_lintegral_mul _ hf hg, lintegral_prod _ (hf.mul hg).aemeasurable]
  refine lintegral_congr fun θ => ?_
  have hm : Measurable fun v : Fin m → ℝ =>
      (∏ j, invGammaPDF (1 / 2 * (N0 j + Nobs j)) ((N0 j * S20 j + q θ j) / 2) (v j)) * g (θ, v) :=
    (Finset.measurable_prod _ fun j _ => (measurable_invGammaPDF _).comp
      (measurable_const.prodMk (measurable_pi_apply j))).mul (hg.comp (measurable_const.prodMk measurable_id))
  rw [← lintegral_const_mul _ hm]
  refine lintegral_congr fun v => ?_
  rw [Pi.mul_apply, jointDensity_variances hshape hrate (θ, v), ← mul_assoc]
  rfl

theorem valueFactor_le {M β : ℝ} (h : BoundedProblem flags specs q r N0 S20 M β) (hshape : ∀ j, 0 < N0 j + Nobs j)
    (θ : Fin (nS flags) → ℝ) :
    valueFactor flags specs q r Nobs N0 S20 θ ≤ ENNReal.ofReal (Real.exp (1 / 2 * M) *
      ∏ j, (Real.Gamma (1 / 2 * (N0 j + Nobs j)) / (β / 2) ^ (1 / 2 * (N0 j + Nobs j)))) := by
  unfold valueFactor
  split_ifs with hθ
  · have hβ := h.pos
    have hG : ∀ j, 0 < Real.Gamma (1 / 2 * (N0 j + Nobs j)) := fun j =>
      Real.Gamma_pos_of_pos (by have := hshape j; positivity)
    refine ENNReal.ofReal_le_ofReal (mul_le_mul ?_ ?_ ?_ (Real.exp_pos _).le)
    · refine Real.exp_le_exp.2 ?_
      have := (abs_le.1 (h.prior θ hθ)).1
      linarith
    · refine Finset.prod_le_prod (fun j _ => ?_) fun j _ => ?_
      · have := h.rate θ hθ j
        exact div_nonneg (hG j).le (Real.rpow_nonneg (by linarith) _)
      · refine div_le_div_of_nonneg_left (hG j).le (Real.rpow_pos_of_pos (by linarith) _) ?_
        refine Real.rpow_le_rpow (by linarith) ?_ (by have := hshape j; positivity)
        have := h.rate θ hθ j
        linarith
    · refine Finset.prod_nonneg fun j _ => ?_
      have := h.rate θ hθ j
      exact div_nonneg (hG j).le (Real.rpow_nonneg (by linarith) _)
  · exact zero_le

theorem valueFactor_ne_zero {M β : ℝ} (h : BoundedProblem flags specs q r N0 S20 M β)
    (hshape : ∀ j, 0 < N0 j + Nobs j) {θ : Fin (nS flags) → ℝ} (hθ : InLimits flags specs (finVec θ)) :
    valueFactor flags specs q r Nobs N0 S20 θ ≠ 0 := by
  unfold valueFactor
  rw [if_pos hθ, Ne, ENNReal.ofReal_eq_zero, not_le]
  refine mul_pos (Real.exp_pos _) (Finset.prod_pos fun j _ => ?_)
  have h1 := h.rate θ hθ j
  have hβ := h.pos
  exact div_pos (Real.Gamma_pos_of_pos (by have := hshape j; positivity))
    (Real.rpow_pos_of_pos (by linarith) _)

theorem lintegral_prod_invGamma {a b : Fin m → ℝ} (ha : ∀ j, 0 < a j) (hb : ∀ j, 0 < b j) :
    ∫⁻ v : Fin m → ℝ, ∏ j, invGammaPDF (a j) (b j) (v j) = 1 := by
  have : ∀ j, IsProbabilityMeasure (gammaMeasure (a j) 1) := fun j =>
    isProbabilityMeasure_gammaMeasure (ha j) one_pos
  have h := lintegral_invGammas ha hb (h := fun _ => 1) measurable_const
  simpa using h.symm

theorem joint_mass {M β : ℝ} (hlim : FiniteLimits flags specs) (h : BoundedProblem flags specs q r N0 S20 M β)
    (hq : Measurable q) (hr : Measurable r) (hshape : ∀ j, 0 < N0 j + Nobs j) :
    jointPosterior flags specs q r Nobs N0 S20 Set.univ ≠ 0 ∧
    jointPosterior flags specs q r Nobs N0 S20 Set.univ ≠ ⊤ ∧
    jointPosterior flags specs q r Nobs N0 S20 {p | InLimits flags specs (finVec p.1) ∧ ∀ j, 0 < p.2 j}ᶜ = 0 := by
  classical
  have hS := measurableSet_inLimits (flags := flags) specs
  have hpos : ∀ θ, InLimits flags specs (finVec θ) → ∀ j, 0 < N0 j * S20 j + q θ j := fun θ hθ j =>
    h.pos.trans_le (h.rate θ hθ j)
  have ha : ∀ j, 0 < 1 / 2 * (N0 j + Nobs j) := fun j => by have := hshape j; positivity
  have hZ : jointPosterior flags specs q r Nobs N0 S20 Set.univ =
      ∫⁻ θ, valueFactor flags specs q r Nobs N0 S20 θ := by
    rw [← setLIntegral_one, Measure.restrict_univ,
      jointPosterior_lintegral hq hr hshape hpos (g := fun _ => 1) measurable_const]
    refine lintegral_congr fun θ => ?_
    by_cases hθ : InLimits flags specs (finVec θ)
    · simp only [mul_one]
      rw [lintegral_prod_invGamma ha (fun j => by have := hpos θ hθ j; positivity), mul_one]
    · simp [valueFactor, hθ]
  have hvm : Measurable (valueFactor flags specs q r Nobs N0 S20) := by
    have h2 : ∀ i, Measurable fun θ : Fin (nS flags) → ℝ => q θ i := fun i => (measurable_pi_apply i).comp hq
    refine Measurable.ite hS (Measurable.ennreal_ofReal ((hr.const_mul _).exp.mul ?_)) measurable_const
    exact Finset.measurable_prod _ fun j _ => measurable_const.div ((((h2 j).const_add _).div_const _).pow_const _)
  rw [hZ]
  refine ⟨fun h0 => ?_, ?_, ?_⟩
  · rw [lintegral_eq_zero_iff hvm] at h0
    apply hlim.volume.1
    exact measure_mono_null (fun θ hθ h1 => valueFactor_ne_zero h hshape hθ h1) h0
  · refine ne_top_of_le_ne_top (b := ∫⁻ θ in {θ | InLimits flags specs (finVec θ)}, ENNReal.ofReal
      (Real.exp (1 / 2 * M) * ∏ j, (Real.Gamma (1 / 2 * (N0 j + Nobs j)) /
        (β / 2) ^ (1 / 2 * (N0 j + Nobs j))))) ?_ ?_
    · rw [setLIntegral_const]
      exact ENNReal.mul_ne_top ENNReal.ofReal_ne_top hlim.volume.2
    · rw [← lintegral_indicator hS]
      refine lintegral_mono fun θ => ?_
      by_cases hθ : θ ∈ {θ | InLimits flags specs (finVec θ)}
      · rw [Set.indicator_of_mem hθ]
        exact valueFactor_le h hshape θ
      · have hθ' : ¬ InLimits flags specs (finVec θ) := hθ
        rw [Set.indicator_of_notMem hθ]
        simp [valueFactor, hθ']
  · have hset : MeasurableSet
        {p : (Fin (nS flags) → ℝ) × (Fin m → ℝ) | InLimits flags specs (finVec p.1) ∧ ∀ j, 0 < p.2 j} := by
      have : {p : (Fin (nS flags) → ℝ) × (Fin m → ℝ) | InLimits flags specs (finVec p.1) ∧ ∀ j, 0 < p.2 j} =
          Prod.fst ⁻¹' {θ | InLimits flags specs (finVec θ)} ∩
            ⋂ j, {p : (Fin (nS flags) → ℝ) × (Fin m → ℝ) | 0 < p.2 j} := by
        ext p; simp
      rw [this]
      exact (measurable_fst hS).inter (MeasurableSet.iInter fun j =>
        measurableSet_lt measurable_const ((measurable_pi_apply j).comp measurable_snd))
    unfold jointPosterior
    rw [withDensity_apply _ hset.compl, ← lintegral_indicator hset.compl]
    refine (lintegral_congr fun p => ?_).trans lintegral_zero
    by_cases hp : p ∈ {p : (Fin (nS flags) → ℝ) × (Fin m → ℝ) |
        InLimits flags specs (finVec p.1) ∧ ∀ j, 0 < p.2 j}
    · rw [Set.indicator_of_notMem (by simpa using hp)]
    · rw [Set.indicator_of_mem hp]
      unfold jointDensity
      rw [Set.indicator_of_notMem hp, ENNReal.ofReal_zero]

theorem invGamma_ge {a b v β B : ℝ} (ha : 0 < a) (hβ : 0 < β) (h1 : β ≤ b) (h2 : b ≤ B) (hv : 1 ≤ v) (hv2 : v ≤ 2) :
    ENNReal.ofReal (β ^ a / Real.Gamma a * (2 ^ (-a - 1) * Real.exp (-B))) ≤ invGammaPDF a b v := by
  unfold invGammaPDF
  rw [if_pos (by linarith)]
  have hG := Real.Gamma_pos_of_pos ha
  have hb : 0 < b := hβ.trans_le h1
  refine ENNReal.ofReal_le_ofReal (mul_le_mul ?_ ?_ (by positivity) ?_)
  · exact div_le_div_of_nonneg_right (Real.rpow_le_rpow hβ.le h1 ha.le) hG.le
  · refine mul_le_mul ?_ ?_ (Real.exp_pos _).le (Real.rpow_nonneg (by linarith) _)
    · exact Real.rpow_le_rpow_of_nonpos (by linarith) hv2 (by linarith)
    · refine Real.exp_le_exp.2 ?_
      rw [neg_div, neg_le_neg_iff]
      exact (div_le_self hb.le hv).trans h2
  · exact div_nonneg (Real.rpow_nonneg hb.le _) hG.le

end mass

section run
variable {σ : Type} [MeasurableSpace σ] {μ : Measure σ} [IsProbabilityMeasure μ] {G : Rng σ XR} {N m : ℕ}
  {flags : Fin N → Bool} {U : UserFuns XR N (nS flags) m} {L : Lapack XR}
  {specs : Fin N → ParamSpec XR} {sp : (Fin (nS flags) → ℝ) → Fin N → ParamSpec XR} {opts : SimOpts XR}
  {extra : ExtraOpts XR (nS flags)} {ms : (Fin m → ℝ) → ModelSettings XR} {data : Data}
  {q : (Fin (nS flags) → ℝ) → Fin m → ℝ} {r : (Fin (nS flags) → ℝ) → ℝ} {Nobs N0 S20 : Fin m → ℝ}
  {dom : Set ((Fin (nS flags) → ℝ) × (Fin m → ℝ))}

/-- the joint posterior as a probability law -/
noncomputable def jointLaw (flags : Fin N → Bool) (specs : Fin N → ParamSpec XR)
    (q : (Fin (nS flags) → ℝ) → Fin m → ℝ) (r : (Fin (nS flags) → ℝ) → ℝ) (Nobs N0 S20 : Fin m → ℝ) :
    Measure ((Fin (nS flags) → ℝ) × (Fin m → ℝ)) :=
  (jointPosterior flags specs q r Nobs N0 S20 Set.univ)⁻¹ • jointPosterior flags specs q r Nobs N0 S20

/-- The chains of all lengths come from one transition with a lower bound after two iterations. -/
theorem joint_doeblin
    (H : ∀ k : ℤ, 1 < k → JointProblem U G L specs sp { opts with nsimu := k } extra ms data q r Nobs N0 S20 dom)
    (D : IdealRng G (nS flags) μ) (D1 : IdealRng G 1 μ) (hlim : FiniteLimits flags specs) {M β : ℝ}
    (hbd : BoundedProblem flags specs q r N0 S20 M β) (hdom : dom.Nonempty) :
    IsProbabilityMeasure (jointLaw flags specs q r Nobs N0 S20) ∧
    jointLaw flags specs q r Nobs N0 S20 {p | InLimits flags specs (finVec p.1) ∧ ∀ j, 0 < p.2 j}ᶜ = 0 ∧
    ∃ ε : ℝ≥0∞, 0 < ε ∧ ∀ k : ℤ, 1 < k →
      ∃ T : ((Fin (nS flags) → ℝ) × (Fin m → ℝ)) × σ → ((Fin (nS flags) → ℝ) × (Fin m → ℝ)) × σ,
      Doeblin μ T {p | InLimits flags specs (finVec p.1) ∧ ∀ j, 0 < p.2 j} 2 ε
        (jointLaw flags specs q r Nobs N0 S20) ∧
      MeasurePreserving T ((jointLaw flags specs q r Nobs N0 S20).prod μ)
        ((jointLaw flags specs q r Nobs N0 S20).prod μ) ∧
      ∀ p ∈ dom, ∀ᵐ s ∂μ, ∃ K, ∀ fuel, K ≤ fuel →
        ∃ out, runSimulation U G L fuel (newObj (sp p.1) { opts with nsimu := k } extra (ms p.2) data) s false =
            .ok out ∧
          ∃ c, out.results.s2chain = some c ∧ ∀ j : ℕ, (j : ℤ) < k →
            out.results.chain[j]? = some (finVec (T^[j] (p, s)).1.1) ∧
            c[j]? = some (finVec (T^[j] (p, s)).1.2) := by
  classical
  have H2 := H 2 (by norm_num)
  have hq := H2.measurable.1
  have hr := H2.measurable.2
  have ha : ∀ j, 0 < 1 / 2 * (N0 j + Nobs j) := fun j => by have := H2.shapes j; positivity
  obtain ⟨hZ0, hZt, hZS⟩ := joint_mass hlim hbd hq hr H2.shapes
  set Z := jointPosterior flags specs q r Nobs N0 S20 Set.univ with hZ
  set S2 := {p : (Fin (nS flags) → ℝ) × (Fin m → ℝ) | InLimits flags specs (finVec p.1) ∧ ∀ j, 0 < p.2 j} with hS2
  have hprob : IsProbabilityMeasure (jointLaw flags specs q r Nobs N0 S20) := ⟨by
    unfold jointLaw
    rw [Measure.smul_apply, smul_eq_mul, ← hZ, ENNReal.inv_mul_cancel hZ0 hZt]⟩
  have hS0 : jointLaw flags specs q r Nobs N0 S20 S2ᶜ = 0 := by
    unfold jointLaw
    rw [Measure.smul_apply, hZS, smul_zero]
  refine ⟨hprob, hS0, ?_⟩
  obtain ⟨p0, hp0⟩ := hdom
  obtain ⟨C, hC⟩ := hlim.bounded
  have hSm := measurableSet_inLimits (flags := flags) specs
  have hb : Measurable fun (θ : Fin (nS flags) → ℝ) j => (N0 j * S20 j + q θ j) / 2 :=
    measurable_pi_iff.2 fun j => (((measurable_pi_apply j).comp hq).const_add _).div_const _
  have hd := measurable_logPost_density (flags := flags) (specs := specs) hq hr
  have hlp : ∀ v θ, logPost flags specs q r v θ ≠ none ↔ θ ∈ {θ | InLimits flags specs (finVec θ)} := by
    intro v θ
    unfold logPost
    by_cases h : InLimits flags specs (finVec θ)
    · simp [h]
    · simp [h]
  have hbS : ∀ θ ∈ {θ | InLimits flags specs (finVec θ)}, ∀ j, 0 < (N0 j * S20 j + q θ j) / 2 := fun θ hθ j => by
    have h1 := hbd.rate θ hθ j
    have h2 := hbd.pos
    linarith
  have hM : 0 ≤ M := (abs_nonneg _).trans (hbd.prior _ (H2.within p0 hp0).1)
  set lo := Real.exp (-(1 / 2) * (m * M) - 1 / 2 * M) with hlo
  set hi := Real.exp (1 / 2 * (m * M) + 1 / 2 * M) with hhi
  have hdens : ∀ v ∈ Set.Icc (1 : Fin m → ℝ) 2, ∀ θ ∈ {θ | InLimits flags specs (finVec θ)},
      lo ≤ (pointAt (logPost flags specs q r v) θ).density ∧
      (pointAt (logPost flags specs q r v) θ).density ≤ hi := by
    intro v hv θ hθ
    rw [logPost_density]
    unfold posteriorDensity
    rw [Set.indicator_of_mem hθ]
    have h1 : |∑ i, q θ i / v i| ≤ m * M := by
      calc |∑ i, q θ i / v i| ≤ ∑ i, |q θ i / v i| := Finset.abs_sum_le_sum_abs _ _
        _ ≤ ∑ _i : Fin m, M := Finset.sum_le_sum fun i _ => by
            have hv1 : 1 ≤ v i := hv.1 i
            rw [abs_div, abs_of_nonneg (by linarith : 0 ≤ v i)]
            exact (div_le_self (abs_nonneg _) hv1).trans (hbd.sos θ hθ i)
        _ = m * M := by simp
    have h2 := abs_le.1 h1
    have h3 := abs_le.1 (hbd.prior θ hθ)
    exact ⟨Real.exp_le_exp.2 (by linarith), Real.exp_le_exp.2 (by linarith)⟩
  set B := (∑ j, |N0 j * S20 j| + M) / 2 with hB
  set g0 : ℝ≥0∞ := ∏ j, ENNReal.ofReal ((β / 2) ^ (1 / 2 * (N0 j + Nobs j)) / Real.Gamma (1 / 2 * (N0 j + Nobs j)) *
    (2 ^ (-(1 / 2 * (N0 j + Nobs j)) - 1) * Real.exp (-B))) with hg0d
  have hg0pos : g0 ≠ 0 := by
    rw [hg0d, Finset.prod_ne_zero_iff]
    intro j _
    rw [Ne, ENNReal.ofReal_eq_zero, not_le]
    have := Real.Gamma_pos_of_pos (ha j)
    have hβ := hbd.pos
    positivity
  have hg0 : ∀ θ ∈ {θ | InLimits flags specs (finVec θ)}, ∀ v ∈ Set.Icc (1 : Fin m → ℝ) 2,
      g0 ≤ ∏ j, invGammaPDF (1 / 2 * (N0 j + Nobs j)) ((N0 j * S20 j + q θ j) / 2) (v j) := by
    intro θ hθ v hv
    refine Finset.prod_le_prod' fun j _ => ?_
    have hβ := hbd.pos
    refine invGamma_ge (ha j) (by linarith) ?_ ?_ (hv.1 j) (hv.2 j)
    · have := hbd.rate θ hθ j
      linarith
    · have h1 := (abs_le.1 (hbd.sos θ hθ j)).2
      have h2 := le_abs_self (N0 j * S20 j)
      have h3 : |N0 j * S20 j| ≤ ∑ j, |N0 j * S20 j| :=
        Finset.single_le_sum (f := fun j => |N0 j * S20 j|) (fun i _ => abs_nonneg _) (Finset.mem_univ j)
      rw [hB]
      linarith
  set Cm : ℝ≥0∞ := ENNReal.ofReal (Real.exp (1 / 2 * M) *
      ∏ j, (Real.Gamma (1 / 2 * (N0 j + Nobs j)) / (β / 2) ^ (1 / 2 * (N0 j + Nobs j)))) with hCm
  have hCm0 : Cm ≠ 0 := by
    rw [hCm, Ne, ENNReal.ofReal_eq_zero, not_le]
    refine mul_pos (Real.exp_pos _) (Finset.prod_pos fun j _ => ?_)
    have hβ := hbd.pos
    exact div_pos (Real.Gamma_pos_of_pos (ha j)) (Real.rpow_pos_of_pos (by linarith) _)
  have hCmt : Cm ≠ ⊤ := ENNReal.ofReal_ne_top
  obtain ⟨qc, Q, A, W, draw0, hqc, hA, hAW, -⟩ := joint_rows H2 D D1 hp0
  set c0 := gaussConst (A 0) * ENNReal.ofReal (Real.exp (-(1 / 2) * ∑ j, (∑ i, C * |W 0 i j|) ^ 2)) *
    ENNReal.ofReal hi⁻¹ with hc0
  let ε : ℝ≥0∞ := g0 * (c0 * (ENNReal.ofReal lo * (Cm⁻¹ * Z)))
  have hε : 0 < ε := by
    refine ENNReal.mul_pos hg0pos (mul_ne_zero (mul_ne_zero (mul_ne_zero ?_ ?_) ?_)
      (mul_ne_zero ?_ (mul_ne_zero ?_ hZ0)))
    · exact (gaussConst_pos (hAW 0 (by omega))).ne'
    · simp [Real.exp_pos]
    · simp [hhi, Real.exp_pos]
    · simp [hlo, Real.exp_pos]
    · exact ENNReal.inv_ne_zero.2 hCmt
  refine ⟨ε, hε, fun k hk => ?_⟩
  have Hk := H k hk
  obtain ⟨qc', Q', A', W', draw, hqc', hA', hAW', hdraw, hpos, hrows⟩ := joint_rows Hk D D1 hp0
  obtain rfl : qc = qc' := Option.some.inj (hqc.symm.trans hqc')
  have hAA : A' 0 = A 0 := by
    rw [hA] at hA'
    have := congrArg Prod.fst (Except.ok.inj hA')
    funext i j
    have := congrFun (congrFun this i) j
    exact (XR.fin.inj this).symm
  have hWW : W' 0 = W 0 := by
    have h1 := hAW 0 (by omega)
    have h2 := hAW' 0 (by omega)
    rw [hAA] at h2
    have h3 : Matrix.of (W' 0) = Matrix.of (W 0) := by
      rw [← Matrix.inv_eq_right_inv h1, Matrix.inv_eq_right_inv h2]
    exact h3
  set K := max 1 ({ opts with nsimu := k } : SimOpts XR).ntry.toNat with hK
  have hfM : Fresh μ (moveStep D A' W' (logPost flags specs q r) K) := fresh_moveStep D hd hAW'
  have hfT := (fresh_varianceStep hb ha hdraw).comp hfM
  set T := varianceStep (fun (θ : Fin (nS flags) → ℝ) j => (N0 j * S20 j + q θ j) / 2) draw ∘
    moveStep D A' W' (logPost flags specs q r) K with hT
  have hlow : ∀ p : (Fin (nS flags) → ℝ) × (Fin m → ℝ), InLimits flags specs (finVec p.1) → ∀ E, MeasurableSet E →
      ε * jointLaw flags specs q r Nobs N0 S20 E ≤ μ {s | (T^[2] (p, s)).1 ∈ E} := by
    intro p hp E hE
    have h1 := jointStep_lower D (A := A') (W := W') hd (K := K) (by omega) hAW' hb ha hdraw hSm hlp hbS
      (fun x hx y hy => hC x y hx hy) (Real.exp_pos _) hdens hg0 (g := E.indicator 1)
      (measurable_one.indicator hE) p hp
    have e1 : ∫⁻ s, E.indicator (1 : (Fin (nS flags) → ℝ) × (Fin m → ℝ) → ℝ≥0∞) (T^[2] (p, s)).1 ∂μ =
        μ {s | (T^[2] (p, s)).1 ∈ E} := by
      have hm : MeasurableSet {s | (T^[2] (p, s)).1 ∈ E} := hfT.measurable_row 2 p hE
      rw [← lintegral_indicator_one hm]
      rfl
    rw [← hT, e1, hAA, hWW, ← hc0] at h1
    refine le_trans ?_ h1
    have e2 : jointPosterior flags specs q r Nobs N0 S20 E ≤ Cm *
        ∫⁻ y in {θ | InLimits flags specs (finVec θ)}, ∫⁻ v, (∏ j, invGammaPDF (1 / 2 * (N0 j + Nobs j))
          ((N0 j * S20 j + q y j) / 2) (v j)) * E.indicator (1 : (Fin (nS flags) → ℝ) × (Fin m → ℝ) → ℝ≥0∞) (y, v) := by
      rw [← lintegral_indicator_one hE, jointPosterior_lintegral hq hr H2.shapes Hk.rates (measurable_one.indicator hE),
        ← lintegral_indicator hSm]
      have hm1 : Measurable fun z : (Fin (nS flags) → ℝ) × (Fin m → ℝ) =>
          (∏ j, invGammaPDF (1 / 2 * (N0 j + Nobs j)) ((N0 j * S20 j + q z.1 j) / 2) (z.2 j)) *
            E.indicator (1 : (Fin (nS flags) → ℝ) × (Fin m → ℝ) → ℝ≥0∞) (z.1, z.2) :=
        (Finset.measurable_prod _ fun j _ => (measurable_invGammaPDF _).comp
          (((measurable_pi_apply j).comp (hb.comp measurable_fst)).prodMk
            ((measurable_pi_apply j).comp measurable_snd))).mul (measurable_one.indicator hE)
      rw [← lintegral_const_mul _ (hm1.lintegral_prod_right'.indicator hSm)]
      refine lintegral_mono fun θ => ?_
      by_cases hθ : θ ∈ {θ | InLimits flags specs (finVec θ)}
      · rw [Set.indicator_of_mem hθ]
        exact mul_le_mul_left (valueFactor_le hbd H2.shapes θ) _
      · have hθ' : ¬ InLimits flags specs (finVec θ) := hθ
        simp [valueFactor, hθ']
    have e3 : Cm⁻¹ * jointPosterior flags specs q r Nobs N0 S20 E ≤
        ∫⁻ y in {θ | InLimits flags specs (finVec θ)}, ∫⁻ v, (∏ j, invGammaPDF (1 / 2 * (N0 j + Nobs j))
          ((N0 j * S20 j + q y j) / 2) (v j)) * E.indicator (1 : (Fin (nS flags) → ℝ) × (Fin m → ℝ) → ℝ≥0∞) (y, v) := by
      calc _ ≤ Cm⁻¹ * _ := mul_le_mul_right e2 _
        _ = _ := by rw [← mul_assoc, ENNReal.inv_mul_cancel hCm0 hCmt, one_mul]
    refine le_trans (le_of_eq ?_)
      (mul_le_mul_right (mul_le_mul_right (mul_le_mul_right e3 (ENNReal.ofReal lo)) c0) g0)
    unfold jointLaw
    rw [Measure.smul_apply, smul_eq_mul, ← hZ]
    simp only [ε]
    have : Z * Z⁻¹ = 1 := ENNReal.mul_inv_cancel hZ0 hZt
    calc _ = g0 * (c0 * (ENNReal.ofReal lo * (Cm⁻¹ * ((Z * Z⁻¹) * jointPosterior flags specs q r Nobs N0 S20 E)))) := by
          ring
      _ = _ := by rw [this, one_mul]
  refine ⟨T, ⟨hfT, ?_, ?_, two_pos, hprob, ?_, ?_⟩, ?_, hrows⟩
  · have : S2 = Prod.fst ⁻¹' {θ | InLimits flags specs (finVec θ)} ∩
        ⋂ j, {p : (Fin (nS flags) → ℝ) × (Fin m → ℝ) | 0 < p.2 j} := by
      ext p; simp [hS2]
    rw [this]
    exact (measurable_fst hSm).inter (MeasurableSet.iInter fun j =>
      measurableSet_lt measurable_const ((measurable_pi_apply j).comp measurable_snd))
  · intro p hp
    filter_upwards [hfM.ae hpos p] with s hs
    have hin : InLimits flags specs (finVec (moveStep D A' W' (logPost flags specs q r) K (p, s)).1.1) :=
      (hlp p.2 _).1 (moveFrom_mem D K 0 (fun _ => p.1) s ((hlp p.2 _).2 hp.1))
    exact ⟨hin, fun j => div_pos (hbS _ hin j) (hs j)⟩
  · have := hlow p0 (H2.within p0 hp0).1 Set.univ MeasurableSet.univ
    simpa using this
  · exact fun p hp E hE => hlow p hp.1 E hE
  · have hf : Measurable fun p => ENNReal.ofReal (jointDensity flags specs q r Nobs N0 S20 p) :=
      (measurable_jointDensity hq hr).ennreal_ofReal
    have hmove := moveStep_invariant D (A := A') (W := W') (lp := logPost flags specs q r)
      (volume : Measure (Fin m → ℝ)) hd hAW'
      (c := fun v => if ∀ j, 0 < v j then ENNReal.ofReal ((∏ j, v j ^ (-(Nobs j / 2))) *
          ∏ j, v j ^ (-(N0 j / 2) - 1) * Real.exp (-(N0 j * S20 j / (2 * v j)))) else 0) hf
      (fun p => jointDensity_values p)
    have hvar := varianceStep_invariant (volume : Measure (Fin (nS flags) → ℝ)) hb ha hdraw
      (C := valueFactor flags specs q r Nobs N0 S20)
      (fun θ hθ j => by
        have hin : InLimits flags specs (finVec θ) := by
          by_contra hh
          exact hθ (if_neg hh)
        exact hbS θ hin j) hf (fun p => jointDensity_variances H2.shapes Hk.rates p)
    have hsf : SFinite (jointPosterior flags specs q r Nobs N0 S20) := by unfold jointPosterior; infer_instance
    exact MeasurePreserving.smul_left (π := jointPosterior flags specs q r Nobs N0 S20) (hvar.comp hmove) _

/-- **C87** both chains forget their start and converge to the joint posterior: there is `ε > 0` such that, for
runs of every length from every start, the law of the pair of row `j` of the chain and row `j` of the
chain of variances differs from the joint posterior by at most `(1 - ε)^(j/2)` (whole part), uniformly
over all events. -/
theorem C87_convergence
    (H : ∀ k : ℤ, 1 < k → JointProblem U G L specs sp { opts with nsimu := k } extra ms data q r Nobs N0 S20 dom)
    (D : IdealRng G (nS flags) μ) (D1 : IdealRng G 1 μ) (hlim : FiniteLimits flags specs) {M β : ℝ}
    (hbd : BoundedProblem flags specs q r N0 S20 M β) :
    ∃ ε : ℝ, 0 < ε ∧ ε ≤ 1 ∧ ∀ k : ℤ, 1 < k → ∀ p ∈ dom, ∀ j : ℕ, (j : ℤ) < k →
      ∀ B : Set ((Fin (nS flags) → ℝ) × (Fin m → ℝ)), MeasurableSet B →
        |μ.real {s | ∃ K, ∀ fuel, K ≤ fuel → ∃ out c t w,
            runSimulation U G L fuel (newObj (sp p.1) { opts with nsimu := k } extra (ms p.2) data) s false = .ok out ∧
            out.results.s2chain = some c ∧ out.results.chain[j]? = some (finVec t) ∧
            c[j]? = some (finVec w) ∧ (t, w) ∈ B} -
          (jointPosterior flags specs q r Nobs N0 S20).real B /
            (jointPosterior flags specs q r Nobs N0 S20).real Set.univ| ≤ (1 - ε) ^ (j / 2) := by
  by_cases hdom : dom.Nonempty
  swap
  · exact ⟨1, one_pos, le_rfl, fun k _ p hp => absurd ⟨p, hp⟩ hdom⟩
  obtain ⟨hp, hS0, ε, hε, hk⟩ := joint_doeblin H D D1 hlim hbd hdom
  have hε1 : ε ≤ 1 := by
    obtain ⟨T, hT, -⟩ := hk 2 (by norm_num)
    exact hT.εle
  have hεt : ε ≠ ⊤ := ne_top_of_le_ne_top ENNReal.one_ne_top hε1
  refine ⟨ε.toReal, ENNReal.toReal_pos hε.ne' hεt, by
    have := ENNReal.toReal_mono ENNReal.one_ne_top hε1; simpa using this, fun k hk1 p hpd j hj B hB => ?_⟩
  obtain ⟨T, hT, hpres, hrun⟩ := hk k hk1
  have h := hT.converges hpres hS0 hB j (x := p) ((H 2 (by norm_num)).within p hpd)
  have e1 : {s | ∃ K, ∀ fuel, K ≤ fuel → ∃ out c t w,
      runSimulation U G L fuel (newObj (sp p.1) { opts with nsimu := k } extra (ms p.2) data) s false = .ok out ∧
      out.results.s2chain = some c ∧ out.results.chain[j]? = some (finVec t) ∧
      c[j]? = some (finVec w) ∧ (t, w) ∈ B} =ᵐ[μ] {s | (T^[j] (p, s)).1 ∈ B} := by
    filter_upwards [hrun p hpd] with s hs
    obtain ⟨K, hK⟩ := hs
    refine propext ⟨?_, fun hB' => ?_⟩
    · rintro ⟨K', hK'⟩
      obtain ⟨out, ho, c, hc, hr⟩ := hK (max K K') (le_max_left _ _)
      obtain ⟨out', c', t, w, ho', hc', ht, hw, hB'⟩ := hK' (max K K') (le_max_right _ _)
      rw [ho] at ho'
      cases ho'
      rw [hc] at hc'
      cases hc'
      rw [(hr j hj).1] at ht
      rw [(hr j hj).2] at hw
      have e1 : (T^[j] (p, s)).1.1 = t := finVec_injective (Option.some.inj ht)
      have e2 : (T^[j] (p, s)).1.2 = w := finVec_injective (Option.some.inj hw)
      change (T^[j] (p, s)).1 ∈ B
      rw [show (T^[j] (p, s)).1 = (t, w) from Prod.ext e1 e2]
      exact hB'
    · refine ⟨K, fun fuel hf => ?_⟩
      obtain ⟨out, ho, c, hc, hr⟩ := hK fuel hf
      exact ⟨out, c, _, _, ho, hc, (hr j hj).1, (hr j hj).2, hB'⟩
  have e2 : (jointLaw flags specs q r Nobs N0 S20).real B = (jointPosterior flags specs q r Nobs N0 S20).real B /
      (jointPosterior flags specs q r Nobs N0 S20).real Set.univ := by
    unfold jointLaw Measure.real
    rw [Measure.smul_apply, smul_eq_mul, ENNReal.toReal_mul, ENNReal.toReal_inv, inv_mul_eq_div]
  rw [measureReal_congr e1, ← e2]
  exact h

/-- **C88** averages along both chains approach the means of the joint posterior: there is `ε > 0` such that, for
runs of every length `k` from every start and every function `f` of values and variances bounded by `c`,
the average of `f` over the rows is within `η` of the posterior mean of `f` with probability at
least `1 - 16 c² / (ε k η²)`. -/
theorem C88_averages
    (H : ∀ k : ℤ, 1 < k → JointProblem U G L specs sp { opts with nsimu := k } extra ms data q r Nobs N0 S20 dom)
    (D : IdealRng G (nS flags) μ) (D1 : IdealRng G 1 μ) (hlim : FiniteLimits flags specs) {M β : ℝ}
    (hbd : BoundedProblem flags specs q r N0 S20 M β) :
    ∃ ε : ℝ, 0 < ε ∧ ∀ k : ℕ, 1 < k → ∀ p ∈ dom,
      ∀ (f : (Fin (nS flags) → ℝ) × (Fin m → ℝ) → ℝ) (c η : ℝ), Measurable f → 0 < c → 0 < η →
        (∀ z, InLimits flags specs (finVec z.1) → (∀ j, 0 < z.2 j) → |f z| ≤ c) →
        1 - 16 * c ^ 2 / (ε * k * η ^ 2) ≤
          μ.real {s | ∃ K, ∀ fuel, K ≤ fuel → ∃ out s2, ∃ t : ℕ → (Fin (nS flags) → ℝ) × (Fin m → ℝ),
              runSimulation U G L fuel (newObj (sp p.1) { opts with nsimu := k } extra (ms p.2) data) s false =
                .ok out ∧ out.results.s2chain = some s2 ∧
              (∀ j : ℕ, j < k → out.results.chain[j]? = some (finVec (t j).1) ∧ s2[j]? = some (finVec (t j).2)) ∧
              |(∑ j ∈ Finset.range k, f (t j)) / k - (∫ z, f z ∂jointPosterior flags specs q r Nobs N0 S20) /
                (jointPosterior flags specs q r Nobs N0 S20).real Set.univ| < η} := by
  by_cases hdom : dom.Nonempty
  swap
  · exact ⟨1, one_pos, fun k _ p hp => absurd ⟨p, hp⟩ hdom⟩
  obtain ⟨hp, hS0, ε, hε, hk⟩ := joint_doeblin H D D1 hlim hbd hdom
  have hε1 : ε ≤ 1 := by
    obtain ⟨T, hT, -⟩ := hk 2 (by norm_num)
    exact hT.εle
  have hεt : ε ≠ ⊤ := ne_top_of_le_ne_top ENNReal.one_ne_top hε1
  refine ⟨ε.toReal, ENNReal.toReal_pos hε.ne' hεt, fun k hk1 p hpd f c η hf hc hη hfc => ?_⟩
  obtain ⟨T, hT, hpres, hrun⟩ := hk k (by exact_mod_cast hk1)
  have h := hT.average hε hpres hS0 hf hc (fun z hz => hfc z hz.1 hz.2) (k := k) (by omega) hη (x := p)
    ((H 2 (by norm_num)).within p hpd)
  have e2 : ∫ z, f z ∂jointLaw flags specs q r Nobs N0 S20 =
      (∫ z, f z ∂jointPosterior flags specs q r Nobs N0 S20) /
      (jointPosterior flags specs q r Nobs N0 S20).real Set.univ := by
    unfold jointLaw Measure.real
    rw [integral_smul_measure, ENNReal.toReal_inv, smul_eq_mul, inv_mul_eq_div]
  have e3 : 8 * c ^ 2 * ((2 : ℕ) : ℝ) / (ε.toReal * k * η ^ 2) = 16 * c ^ 2 / (ε.toReal * k * η ^ 2) := by
    congr 1; push_cast; ring
  rw [e2, e3] at h
  set avg := (∫ z, f z ∂jointPosterior flags specs q r Nobs N0 S20) /
    (jointPosterior flags specs q r Nobs N0 S20).real Set.univ
  have hm : Measurable fun s => |(∑ j ∈ Finset.range k, f (T^[j] (p, s)).1) / k - avg| := by
    have h1 : Measurable fun s => ∑ j ∈ Finset.range k, f (T^[j] (p, s)).1 :=
      Finset.measurable_sum _ fun j _ => hf.comp (hT.fresh.measurable_row j p)
    exact ((h1.div_const _).sub_const _).abs
  have hms : MeasurableSet {s | η ≤ |(∑ j ∈ Finset.range k, f (T^[j] (p, s)).1) / k - avg|} :=
    measurableSet_le measurable_const hm
  have hc' := probReal_compl_eq_one_sub (μ := μ) hms
  calc 1 - 16 * c ^ 2 / (ε.toReal * k * η ^ 2)
      ≤ 1 - μ.real {s | η ≤ |(∑ j ∈ Finset.range k, f (T^[j] (p, s)).1) / k - avg|} := by linarith
    _ = μ.real {s | η ≤ |(∑ j ∈ Finset.range k, f (T^[j] (p, s)).1) / k - avg|}ᶜ := hc'.symm
    _ ≤ _ := by
      refine ENNReal.toReal_mono (measure_ne_top μ _) (measure_mono_ae ?_)
      filter_upwards [hrun p hpd] with s hs hη'
      obtain ⟨K, hK⟩ := hs
      refine ⟨K, fun fuel hf' => ?_⟩
      obtain ⟨out, ho, s2, hs2, hr⟩ := hK fuel hf'
      refine ⟨out, s2, fun j => (T^[j] (p, s)).1, ho, hs2, fun j hj => hr j (by exact_mod_cast hj), ?_⟩
      exact not_le.1 hη'

end run

/-! ### Examples -/

theorem XRun.boundedProblem : BoundedProblem (m := 1) XRun.flags (XRun.specs true)
    (fun θ _ => θ ⟨0, by decide⟩ * θ ⟨0, by decide⟩) (fun _ => 0) (fun _ => 1) (fun _ => 1) 100 1 where
  sos θ hθ j := by
    have := hθ ⟨0, by decide⟩ 0 (by decide)
    simp [XRun.specs, finVec] at this
    rw [abs_le]
    constructor <;> nlinarith [this.1, this.2]
  prior θ _ := by simp
  pos := one_pos
  rate θ _ _ := by have := mul_self_nonneg (θ ⟨0, by decide⟩); linarith

/-- C87 for the problem of C84: from value 3 and variance 2, the probability that value and variance of row `j`
are both at most 1 approaches that of the joint posterior. -/
example : ∃ ε : ℝ, 0 < ε ∧ ε ≤ 1 ∧ ∀ j : ℕ, (j : ℤ) < 1000 →
    |(coinLaw (nS XRun.flags)).real {s | ∃ K, ∀ fuel, K ≤ fuel → ∃ out c t w,
        runSimulation XRun.user (coinRng (nS XRun.flags)) exactLapack fuel
          (newObj (m := 1) (XRun.specsAt fun _ => 3)
            (defineSimulationOptions { nsimu := 1000, method := .dr, updatesigma := true })
            (XRun.extra 1 1) (XRun.settingsAt fun _ => 2) XRun.data) s false = .ok out ∧
        out.results.s2chain = some c ∧ out.results.chain[j]? = some (finVec t) ∧ c[j]? = some (finVec w) ∧
        (t, w) ∈ {z : (Fin (nS XRun.flags) → ℝ) × (Fin 1 → ℝ) | z.1 ⟨0, by decide⟩ ≤ 1 ∧ z.2 0 ≤ 1}} -
      (jointPosterior (m := 1) XRun.flags (XRun.specs true) (fun θ _ => θ ⟨0, by decide⟩ * θ ⟨0, by decide⟩)
        (fun _ => 0) (fun _ => 5) (fun _ => 1) (fun _ => 1)).real
        {z : (Fin (nS XRun.flags) → ℝ) × (Fin 1 → ℝ) | z.1 ⟨0, by decide⟩ ≤ 1 ∧ z.2 0 ≤ 1} /
      (jointPosterior (m := 1) XRun.flags (XRun.specs true) (fun θ _ => θ ⟨0, by decide⟩ * θ ⟨0, by decide⟩)
        (fun _ => 0) (fun _ => 5) (fun _ => 1) (fun _ => 1)).real Set.univ| ≤ (1 - ε) ^ (j / 2) := by
  have D1 : IdealRng (coinRng (nS XRun.flags)) 1 (coinLaw (nS XRun.flags)) := by
    rw [XRun.nS_flags]; exact coinIdeal 1
  obtain ⟨ε, h0, h1, h⟩ := C87_convergence
    (opts := defineSimulationOptions { nsimu := 2, method := .dr, updatesigma := true }) XRun.jointProblem
    (coinIdeal _) D1 XRun.finiteLimits XRun.boundedProblem
  refine ⟨ε, h0, h1, fun j hj => h 1000 (by decide) (fun _ => 3, fun _ => 2) ⟨?_, fun _ => by norm_num⟩ j hj _ ?_⟩
  · intro i k _
    simp [XRun.specs, finVec]
    norm_num
  · exact (measurableSet_le ((measurable_pi_apply _).comp measurable_fst) measurable_const).inter
      (measurableSet_le ((measurable_pi_apply _).comp measurable_snd) measurable_const)

/-- C88 for that problem: the fraction of rows whose variance is at most 1. -/
example : ∃ ε : ℝ, 0 < ε ∧ ∀ k : ℕ, 1 < k →
    1 - 16 * 1 ^ 2 / (ε * k * (1 / 10) ^ 2) ≤
      (coinLaw (nS XRun.flags)).real {s | ∃ K, ∀ fuel, K ≤ fuel → ∃ out s2,
        ∃ t : ℕ → (Fin (nS XRun.flags) → ℝ) × (Fin 1 → ℝ),
        runSimulation XRun.user (coinRng (nS XRun.flags)) exactLapack fuel
          (newObj (m := 1) (XRun.specsAt fun _ => 3)
            (defineSimulationOptions { nsimu := k, method := .dr, updatesigma := true })
            (XRun.extra 1 1) (XRun.settingsAt fun _ => 2) XRun.data) s false = .ok out ∧
        out.results.s2chain = some s2 ∧
        (∀ j : ℕ, j < k → out.results.chain[j]? = some (finVec (t j).1) ∧ s2[j]? = some (finVec (t j).2)) ∧
        |(∑ j ∈ Finset.range k, Set.indicator {z : (Fin (nS XRun.flags) → ℝ) × (Fin 1 → ℝ) | z.2 0 ≤ 1}
            (fun _ => (1 : ℝ)) (t j)) / k -
          (∫ z, Set.indicator {z : (Fin (nS XRun.flags) → ℝ) × (Fin 1 → ℝ) | z.2 0 ≤ 1} (fun _ => (1 : ℝ)) z
            ∂(jointPosterior (m := 1) XRun.flags (XRun.specs true)
              (fun θ _ => θ ⟨0, by decide⟩ * θ ⟨0, by decide⟩) (fun _ => 0) (fun _ => 5) (fun _ => 1) (fun _ => 1))) /
          (jointPosterior (m := 1) XRun.flags (XRun.specs true)
            (fun θ _ => θ ⟨0, by decide⟩ * θ ⟨0, by decide⟩) (fun _ => 0) (fun _ => 5) (fun _ => 1)
            (fun _ => 1)).real Set.univ| < 1 / 10} := by
  have D1 : IdealRng (coinRng (nS XRun.flags)) 1 (coinLaw (nS XRun.flags)) := by
    rw [XRun.nS_flags]; exact coinIdeal 1
  obtain ⟨ε, h0, h⟩ := C88_averages
    (opts := defineSimulationOptions { nsimu := 2, method := .dr, updatesigma := true }) XRun.jointProblem
    (coinIdeal _) D1 XRun.finiteLimits XRun.boundedProblem
  refine ⟨ε, h0, fun k hk => h k hk (fun _ => 3, fun _ => 2) ⟨?_, fun _ => by norm_num⟩
    (Set.indicator {z | z.2 0 ≤ 1} fun _ => 1) 1 (1 / 10) ?_ one_pos (by norm_num) ?_⟩
  · intro i k _
    simp [XRun.specs, finVec]
    norm_num
  · exact measurable_const.indicator (measurableSet_le ((measurable_pi_apply _).comp measurable_snd) measurable_const)
  · intro z _ _
    by_cases hz : z.2 0 ≤ 1
    · rw [Set.indicator_of_mem (by exact hz)]; simp
    · rw [Set.indicator_of_notMem (by exact hz)]; simp

end Verif
