import Verif.Props.JointConvergence
import Verif.Props.Unbounded
import Verif.Lemmas.JointHarris

/-! # Long chains represent every proper joint posterior of parameters and error variances

C114 and C115 drop the bounds of C87 and C88: the limits may be infinite and the sums of squares, the prior and the
density unbounded, only the integral of the joint posterior has to be finite.  From every start the law of the
rows of both chains approaches the joint posterior (C114), and the averages approach the posterior means (C115). -/

set_option linter.unusedSectionVars false

namespace Verif
open MeasureTheory Function ProbabilityTheory
open scoped ENNReal Matrix

section run
variable {σ : Type} [MeasurableSpace σ] {μ : Measure σ} [IsProbabilityMeasure μ] {G : Rng σ XR} {N m : ℕ}
  {flags : Fin N → Bool} {U : UserFuns XR N (nS flags) m} {L : Lapack XR}
  {specs : Fin N → ParamSpec XR} {sp : (Fin (nS flags) → ℝ) → Fin N → ParamSpec XR} {opts : SimOpts XR}
  {extra : ExtraOpts XR (nS flags)} {ms : (Fin m → ℝ) → ModelSettings XR} {data : Data}
  {q : (Fin (nS flags) → ℝ) → Fin m → ℝ} {r : (Fin (nS flags) → ℝ) → ℝ} {Nobs N0 S20 : Fin m → ℝ}
  {dom : Set ((Fin (nS flags) → ℝ) × (Fin m → ℝ))}

theorem measurableSet_jointStarts (flags : Fin N → Bool) (specs : Fin N → ParamSpec XR) (m : ℕ) :
    MeasurableSet {p : (Fin (nS flags) → ℝ) × (Fin m → ℝ) | InLimits flags specs (finVec p.1) ∧ ∀ j, 0 < p.2 j} := by
  have : {p : (Fin (nS flags) → ℝ) × (Fin m → ℝ) | InLimits flags specs (finVec p.1) ∧ ∀ j, 0 < p.2 j} =
      Prod.fst ⁻¹' {θ | InLimits flags specs (finVec θ)} ∩
        ⋂ j, {p : (Fin (nS flags) → ℝ) × (Fin m → ℝ) | 0 < p.2 j} := by
    ext p; simp
  rw [this]
  exact (measurable_fst (measurableSet_inLimits specs)).inter (MeasurableSet.iInter fun j =>
    measurableSet_lt measurable_const ((measurable_pi_apply j).comp measurable_snd))

theorem joint_outside (flags : Fin N → Bool) (specs : Fin N → ParamSpec XR)
    (q : (Fin (nS flags) → ℝ) → Fin m → ℝ) (r : (Fin (nS flags) → ℝ) → ℝ) (Nobs N0 S20 : Fin m → ℝ) :
    jointPosterior flags specs q r Nobs N0 S20 {p | InLimits flags specs (finVec p.1) ∧ ∀ j, 0 < p.2 j}ᶜ = 0 := by
  have hset := measurableSet_jointStarts flags specs m
  unfold jointPosterior
  rw [withDensity_apply _ hset.compl, ← lintegral_indicator hset.compl]
  refine (lintegral_congr fun p => ?_).trans lintegral_zero
  by_cases hp : p ∈ {p : (Fin (nS flags) → ℝ) × (Fin m → ℝ) | InLimits flags specs (finVec p.1) ∧ ∀ j, 0 < p.2 j}
  · rw [Set.indicator_of_notMem (by simpa using hp)]
  · rw [Set.indicator_of_mem hp]
    unfold jointDensity
    rw [Set.indicator_of_notMem hp, ENNReal.ofReal_zero]

theorem measurable_valueFactor (hq : Measurable q) (hr : Measurable r) :
    Measurable (valueFactor flags specs q r Nobs N0 S20) := by
  classical
  have h2 : ∀ i, Measurable fun θ : Fin (nS flags) → ℝ => q θ i := fun i => (measurable_pi_apply i).comp hq
  refine Measurable.ite (measurableSet_inLimits specs) (Measurable.ennreal_ofReal ((hr.const_mul _).exp.mul ?_))
    measurable_const
  exact Finset.measurable_prod _ fun j _ => measurable_const.div ((((h2 j).const_add _).div_const _).pow_const _)

theorem valueFactor_ne_zero_iff (hshape : ∀ j, 0 < N0 j + Nobs j)
    (hrate : ∀ θ, InLimits flags specs (finVec θ) → ∀ j, 0 < N0 j * S20 j + q θ j) (θ : Fin (nS flags) → ℝ) :
    valueFactor flags specs q r Nobs N0 S20 θ ≠ 0 ↔ θ ∈ {θ | InLimits flags specs (finVec θ)} := by
  unfold valueFactor
  by_cases hθ : InLimits flags specs (finVec θ)
  · rw [if_pos hθ, Ne, ENNReal.ofReal_eq_zero, not_le]
    refine ⟨fun _ => hθ, fun _ => mul_pos (Real.exp_pos _) (Finset.prod_pos fun j _ => ?_)⟩
    exact div_pos (Real.Gamma_pos_of_pos (by have := hshape j; positivity))
      (Real.rpow_pos_of_pos (by have := hrate θ hθ j; linarith) _)
  · rw [if_neg hθ]
    exact ⟨fun h => absurd rfl h, fun h => absurd h hθ⟩

theorem valueFactor_lt_top (θ : Fin (nS flags) → ℝ) : valueFactor flags specs q r Nobs N0 S20 θ ≠ ⊤ := by
  unfold valueFactor
  split_ifs
  · exact ENNReal.ofReal_ne_top
  · exact ENNReal.zero_ne_top

/-- values in a bounded part of the limits -/
def valueCore (flags : Fin N → Bool) (specs : Fin N → ParamSpec XR)
    (q : (Fin (nS flags) → ℝ) → Fin m → ℝ) (r : (Fin (nS flags) → ℝ) → ℝ) (Nobs N0 S20 : Fin m → ℝ) (k : ℕ) :
    Set (Fin (nS flags) → ℝ) :=
  {θ | InLimits flags specs (finVec θ) ∧ (∀ i, |θ i| ≤ (k : ℝ) + 1) ∧ (∀ j, |q θ j| ≤ (k : ℝ) + 1) ∧
    |r θ| ≤ (k : ℝ) + 1 ∧ valueFactor flags specs q r Nobs N0 S20 θ ≤ ENNReal.ofReal ((k : ℝ) + 1)}

/-- variances in a bounded part of the positive numbers -/
def varianceCore (m k : ℕ) : Set (Fin m → ℝ) := {v | ∀ j, ((k : ℝ) + 1)⁻¹ ≤ v j ∧ v j ≤ (k : ℝ) + 1}

theorem measurableSet_valueCore (hq : Measurable q) (hr : Measurable r) (k : ℕ) :
    MeasurableSet (valueCore flags specs q r Nobs N0 S20 k) := by
  have h1 : MeasurableSet {θ : Fin (nS flags) → ℝ | ∀ i, |θ i| ≤ (k : ℝ) + 1} := by
    simp only [Set.ofPred_forall]
    exact MeasurableSet.iInter fun i => measurableSet_le (measurable_pi_apply i).abs measurable_const
  have h2 : MeasurableSet {θ : Fin (nS flags) → ℝ | ∀ j, |q θ j| ≤ (k : ℝ) + 1} := by
    simp only [Set.ofPred_forall]
    exact MeasurableSet.iInter fun j => measurableSet_le ((measurable_pi_apply j).comp hq).abs measurable_const
  exact (measurableSet_inLimits specs).inter (h1.inter (h2.inter ((measurableSet_le hr.abs measurable_const).inter
    (measurableSet_le (measurable_valueFactor hq hr) measurable_const))))

theorem measurableSet_varianceCore (m k : ℕ) : MeasurableSet (varianceCore m k) := by
  unfold varianceCore
  simp only [Set.ofPred_forall]
  exact MeasurableSet.iInter fun j => (measurableSet_le measurable_const (measurable_pi_apply j)).inter
    (measurableSet_le (measurable_pi_apply j) measurable_const)

theorem valueCore_mono : Monotone (valueCore flags specs q r Nobs N0 S20) := by
  intro a b hab θ hθ
  have : ((a : ℝ) + 1) ≤ b + 1 := by
    have : (a : ℝ) ≤ b := by exact_mod_cast hab
    linarith
  obtain ⟨h0, h1, h2, h3, h4⟩ := hθ
  exact ⟨h0, fun i => (h1 i).trans this, fun j => (h2 j).trans this, h3.trans this,
    h4.trans (ENNReal.ofReal_le_ofReal this)⟩

theorem varianceCore_mono : Monotone (varianceCore m) := by
  intro a b hab v hv j
  have : ((a : ℝ) + 1) ≤ b + 1 := by
    have : (a : ℝ) ≤ b := by exact_mod_cast hab
    linarith
  exact ⟨(inv_anti₀ (by positivity) this).trans (hv j).1, (hv j).2.trans this⟩

theorem valueCore_exists {θ : Fin (nS flags) → ℝ} (hθ : InLimits flags specs (finVec θ)) :
    ∃ k, θ ∈ valueCore flags specs q r Nobs N0 S20 k := by
  obtain ⟨k, hk⟩ := exists_nat_gt (∑ i, |θ i| + (∑ j, |q θ j| + (|r θ| +
    (valueFactor flags specs q r Nobs N0 S20 θ).toReal)))
  have h1 : 0 ≤ ∑ i, |θ i| := Finset.sum_nonneg fun i _ => abs_nonneg _
  have h2 : 0 ≤ ∑ j, |q θ j| := Finset.sum_nonneg fun i _ => abs_nonneg _
  have h3 := abs_nonneg (r θ)
  have h4 : 0 ≤ (valueFactor flags specs q r Nobs N0 S20 θ).toReal := ENNReal.toReal_nonneg
  refine ⟨k, hθ, fun i => ?_, fun j => ?_, by linarith, ?_⟩
  · have := Finset.single_le_sum (f := fun i => |θ i|) (fun j _ => abs_nonneg _) (Finset.mem_univ i)
    linarith
  · have := Finset.single_le_sum (f := fun i => |q θ i|) (fun j _ => abs_nonneg _) (Finset.mem_univ j)
    linarith
  · rw [← ENNReal.ofReal_toReal (valueFactor_lt_top (Nobs := Nobs) (N0 := N0) (S20 := S20) (q := q) (r := r)
      (specs := specs) θ)]
    exact ENNReal.ofReal_le_ofReal (by linarith)

theorem varianceCore_exists {v : Fin m → ℝ} (hv : ∀ j, 0 < v j) : ∃ k, v ∈ varianceCore m k := by
  obtain ⟨k, hk⟩ := exists_nat_gt (∑ j, (v j + (v j)⁻¹))
  refine ⟨k, fun j => ?_⟩
  have hp := hv j
  have hi := inv_pos.2 hp
  have := Finset.single_le_sum (f := fun j => v j + (v j)⁻¹)
    (fun j _ => (add_pos (hv j) (inv_pos.2 (hv j))).le) (Finset.mem_univ j)
  exact ⟨inv_le_of_inv_le₀ hp (by linarith), by linarith⟩

/-- The chains of all lengths come from one transition, which is Harris recurrent. -/
theorem joint_harris
    (H : ∀ k : ℤ, 1 < k → JointProblem U G L specs sp { opts with nsimu := k } extra ms data q r Nobs N0 S20 dom)
    (D : IdealRng G (nS flags) μ) (D1 : IdealRng G 1 μ)
    (hZ0 : jointPosterior flags specs q r Nobs N0 S20 Set.univ ≠ 0)
    (hZt : jointPosterior flags specs q r Nobs N0 S20 Set.univ ≠ ⊤) (hdom : dom.Nonempty) :
    jointLaw flags specs q r Nobs N0 S20 {p | InLimits flags specs (finVec p.1) ∧ ∀ j, 0 < p.2 j}ᶜ = 0 ∧
    ∃ T : ((Fin (nS flags) → ℝ) × (Fin m → ℝ)) × σ → ((Fin (nS flags) → ℝ) × (Fin m → ℝ)) × σ,
      Harris μ T (jointLaw flags specs q r Nobs N0 S20) ∧
      (∀ p ∈ {p : (Fin (nS flags) → ℝ) × (Fin m → ℝ) | InLimits flags specs (finVec p.1) ∧ ∀ j, 0 < p.2 j},
        Spreads μ T (jointLaw flags specs q r Nobs N0 S20) p) ∧
      (∀ p ∈ {p : (Fin (nS flags) → ℝ) × (Fin m → ℝ) | InLimits flags specs (finVec p.1) ∧ ∀ j, 0 < p.2 j}, ∀ᵐ s ∂μ,
        (T (p, s)).1 ∈ {p : (Fin (nS flags) → ℝ) × (Fin m → ℝ) | InLimits flags specs (finVec p.1) ∧ ∀ j, 0 < p.2 j}) ∧
      ∀ k : ℤ, 1 < k → ∀ p ∈ dom, ∀ᵐ s ∂μ, ∃ K, ∀ fuel, K ≤ fuel →
        ∃ out, runSimulation U G L fuel (newObj (sp p.1) { opts with nsimu := k } extra (ms p.2) data) s false =
            .ok out ∧
          ∃ c, out.results.s2chain = some c ∧ ∀ j : ℕ, (j : ℤ) < k →
            out.results.chain[j]? = some (finVec (T^[j] (p, s)).1.1) ∧
            c[j]? = some (finVec (T^[j] (p, s)).1.2) := by
  classical
  have H2 := H 2 (by norm_num)
  have hq := H2.measurable.1
  have hr := H2.measurable.2
  have ha : ∀ j, 0 < 1 / 2 * (N0 j + Nobs j) := fun j => by have := H2.shapes j; positivity
  set Z := jointPosterior flags specs q r Nobs N0 S20 Set.univ with hZ
  have hprob : IsProbabilityMeasure (jointLaw flags specs q r Nobs N0 S20) := ⟨by
    unfold jointLaw
    rw [Measure.smul_apply, smul_eq_mul, ← hZ, ENNReal.inv_mul_cancel hZ0 hZt]⟩
  refine ⟨by unfold jointLaw; rw [Measure.smul_apply, joint_outside, smul_zero], ?_⟩
  obtain ⟨p0, hp0⟩ := hdom
  have hb : Measurable fun (θ : Fin (nS flags) → ℝ) j => (N0 j * S20 j + q θ j) / 2 :=
    measurable_pi_iff.2 fun j => (((measurable_pi_apply j).comp hq).const_add _).div_const _
  have hd := measurable_logPost_density (flags := flags) (specs := specs) hq hr
  have hlp : ∀ v θ, logPost flags specs q r v θ ≠ none ↔ θ ∈ {θ | InLimits flags specs (finVec θ)} := by
    intro v θ
    unfold logPost
    by_cases h : InLimits flags specs (finVec θ)
    · simp [h]
    · simp [h]
  have hbS : ∀ θ ∈ {θ | InLimits flags specs (finVec θ)}, ∀ j, 0 < (N0 j * S20 j + q θ j) / 2 := fun θ hθ j => by
    have := H2.rates θ hθ j
    linarith
  obtain ⟨draw, hdraw, hdraws⟩ := joint_draw H2 D1 hp0
  have hpos : ∀ᵐ s ∂μ, ∀ i, 0 < (draw s).1 i := by
    obtain ⟨NX, -, hae⟩ := hdraws
    exact hae.mono fun s hs => hs.1
  obtain ⟨qc, Q, A, W, hqc, hA, hAW, ⟨ds, hds, hst⟩, -⟩ := joint_rows_of H2 D hdraw hdraws hp0
  set K := max 1 opts.ntry.toNat with hK
  have hAW : ∀ k < K, A k * Matrix.of (W k) = 1 := hAW
  have hkept : MeasurePreserving (varianceStep (fun (θ : Fin (nS flags) → ℝ) j => (N0 j * S20 j + q θ j) / 2) draw ∘
      moveStep D A W (logPost flags specs q r) K) ((jointLaw flags specs q r Nobs N0 S20).prod μ)
      ((jointLaw flags specs q r Nobs N0 S20).prod μ) := by
    have hf : Measurable fun p => ENNReal.ofReal (jointDensity flags specs q r Nobs N0 S20 p) :=
      (measurable_jointDensity hq hr).ennreal_ofReal
    have hmove := moveStep_invariant D (A := A) (W := W) (lp := logPost flags specs q r)
      (volume : Measure (Fin m → ℝ)) hd hAW
      (c := fun v => if ∀ j, 0 < v j then ENNReal.ofReal ((∏ j, v j ^ (-(Nobs j / 2))) *
          ∏ j, v j ^ (-(N0 j / 2) - 1) * Real.exp (-(N0 j * S20 j / (2 * v j)))) else 0) hf
      (fun p => jointDensity_values p)
    have hvar := varianceStep_invariant (volume : Measure (Fin (nS flags) → ℝ)) hb ha hdraw
      (C := valueFactor flags specs q r Nobs N0 S20)
      (fun θ hθ j => hbS θ ((valueFactor_ne_zero_iff H2.shapes H2.rates θ).1 hθ) j) hf
      (fun p => jointDensity_variances H2.shapes H2.rates p)
    have hsf : SFinite (jointPosterior flags specs q r Nobs N0 S20) := by unfold jointPosterior; infer_instance
    exact MeasurePreserving.smul_left (π := jointPosterior flags specs q r Nobs N0 S20) (hvar.comp hmove) _
  obtain ⟨h1, h2⟩ := jointStep_harris D hd (K := K) (by omega) hAW hb ha hdraw hlp hbS
    (measurable_valueFactor (Nobs := Nobs) (N0 := N0) (S20 := S20) (specs := specs) hq hr)
    (valueFactor_ne_zero_iff H2.shapes H2.rates) hprob hZ0 hZt
    (fun g hg => by
      unfold jointLaw
      rw [lintegral_smul_measure, smul_eq_mul, jointPosterior_lintegral hq hr H2.shapes H2.rates hg]
      rfl) hkept
    (C1 := valueCore flags specs q r Nobs N0 S20) (C2 := varianceCore m)
    (measurableSet_valueCore hq hr) (measurableSet_varianceCore m) valueCore_mono varianceCore_mono
    (fun k θ hθ => hθ.1) (fun θ hθ => valueCore_exists hθ) (fun v hv => varianceCore_exists hv)
    (fun k => by
      set κ : ℝ := (k : ℝ) + 1 with hκ
      have hk0 : (0 : ℝ) ≤ k := Nat.cast_nonneg k
      have hκ1 : 1 ≤ κ := by linarith
      set E : ℝ := (m * (κ * κ) + κ) / 2 with hE
      have hexp := Real.exp_pos E
      refine ⟨Real.exp E + κ, by linarith, fun θ hθ => ⟨fun i => by have := hθ.2.1 i; linarith,
        hθ.2.2.2.2.trans (ENNReal.ofReal_le_ofReal (by linarith)), fun v hv => ?_⟩⟩
      rw [logPost_density]
      unfold posteriorDensity
      rw [Set.indicator_of_mem (by exact hθ.1)]
      have h1 : |∑ i, q θ i / v i| ≤ m * (κ * κ) := by
        calc |∑ i, q θ i / v i| ≤ ∑ i, |q θ i / v i| := Finset.abs_sum_le_sum_abs _ _
          _ ≤ ∑ _i : Fin m, κ * κ := Finset.sum_le_sum fun i _ => by
              have hv1 := (hv i).1
              have hvp : 0 < v i := lt_of_lt_of_le (by positivity) hv1
              rw [abs_div, abs_of_pos hvp, div_le_iff₀ hvp]
              have h3 : 1 ≤ κ * v i := by
                have := mul_le_mul_of_nonneg_left hv1 (by linarith : 0 ≤ κ)
                rwa [mul_inv_cancel₀ (by linarith)] at this
              have h4 := hθ.2.2.1 i
              nlinarith
          _ = m * (κ * κ) := by simp
      have h2 := abs_le.1 h1
      have h3 := abs_le.1 hθ.2.2.2.1
      constructor
      · calc (Real.exp E + κ)⁻¹ ≤ (Real.exp E)⁻¹ := inv_anti₀ hexp (by linarith)
          _ = Real.exp (-E) := (Real.exp_neg E).symm
          _ ≤ _ := Real.exp_le_exp.2 (by rw [hE]; linarith)
      · calc _ ≤ Real.exp E := Real.exp_le_exp.2 (by rw [hE]; linarith)
          _ ≤ _ := by linarith)
  refine ⟨_, h1, fun p hp => h2 p hp.1, fun p hp => ?_, fun k hk => ?_⟩
  · have hfM : Fresh μ (moveStep D A W (logPost flags specs q r) K) := fresh_moveStep D hd hAW
    filter_upwards [hfM.ae hpos p] with s hs
    have hin : InLimits flags specs (finVec (moveStep D A W (logPost flags specs q r) K (p, s)).1.1) :=
      (hlp p.2 _).1 (moveFrom_mem D K 0 (fun _ => p.1) s ((hlp p.2 _).2 hp.1))
    exact ⟨hin, fun j => div_pos (hbS _ hin j) (hs j)⟩
  · have Hk := H k hk
    obtain ⟨qc', Q', A', W', hqc', hA', hAW', ⟨ds', hds', hst'⟩, hrows⟩ := joint_rows_of Hk D hdraw hdraws hp0
    obtain rfl : qc = qc' := Option.some.inj (hqc.symm.trans hqc')
    have hAA : A' 0 = A 0 := by
      rw [hA] at hA'
      have := congrArg Prod.fst (Except.ok.inj hA')
      funext i j
      have := congrFun (congrFun this i) j
      exact (XR.fin.inj this).symm
    obtain rfl : ds = ds' := List.map_injective_iff.2 (fun a b h => XR.fin.inj h) (hds.symm.trans hds')
    have hAk : A' = A := funext fun k => by rw [(hst' k).1, (hst k).1, hAA]
    have hWk : W' = W := funext fun k => by rw [(hst' k).2, (hst k).2, hAk]
    rw [hAk, hWk] at hrows
    exact hrows

/-- **C114** both chains forget their start and converge to the joint posterior, whatever the limits, the sums of
squares and the prior, if only the joint posterior has a finite integral: from every start the law of the pair
of row `j` of the chain and row `j` of the chain of variances, in runs of all lengths, is as close to the
joint posterior as wished from some `j` on, uniformly over all events. -/
theorem C114_convergence
    (H : ∀ k : ℤ, 1 < k → JointProblem U G L specs sp { opts with nsimu := k } extra ms data q r Nobs N0 S20 dom)
    (D : IdealRng G (nS flags) μ) (D1 : IdealRng G 1 μ)
    (hZ0 : jointPosterior flags specs q r Nobs N0 S20 Set.univ ≠ 0)
    (hZt : jointPosterior flags specs q r Nobs N0 S20 Set.univ ≠ ⊤)
    {p : (Fin (nS flags) → ℝ) × (Fin m → ℝ)} (hpd : p ∈ dom) {ε : ℝ} (hε : 0 < ε) :
    ∃ J : ℕ, ∀ j, J ≤ j → ∀ k : ℤ, 1 < k → (j : ℤ) < k →
      ∀ B : Set ((Fin (nS flags) → ℝ) × (Fin m → ℝ)), MeasurableSet B →
        |μ.real {s | ∃ K, ∀ fuel, K ≤ fuel → ∃ out c t w,
            runSimulation U G L fuel (newObj (sp p.1) { opts with nsimu := k } extra (ms p.2) data) s false = .ok out ∧
            out.results.s2chain = some c ∧ out.results.chain[j]? = some (finVec t) ∧
            c[j]? = some (finVec w) ∧ (t, w) ∈ B} -
          (jointPosterior flags specs q r Nobs N0 S20).real B /
            (jointPosterior flags specs q r Nobs N0 S20).real Set.univ| ≤ ε := by
  obtain ⟨hS0, T, hT, hsp, -, hrun⟩ := joint_harris H D D1 hZ0 hZt ⟨p, hpd⟩
  obtain ⟨J, hJ⟩ := hT.near (hsp p ((H 2 (by norm_num)).within p hpd)) hε
  refine ⟨J, fun j hj k hk hjk B hB => ?_⟩
  have h := hJ j hj (B.indicator 1) ⟨measurable_one.indicator hB,
    fun y => Set.indicator_nonneg (fun _ _ => zero_le_one) y,
    fun y => Set.indicator_le_self' (fun _ _ => zero_le_one) y⟩
  have hms : MeasurableSet {s | (T^[j] (p, s)).1 ∈ B} := hT.fresh.measurable_row j p hB
  have e0 : meanAt μ T j (B.indicator 1) p = μ.real {s | (T^[j] (p, s)).1 ∈ B} := by
    rw [← integral_indicator_one hms]; rfl
  rw [e0, integral_indicator_one hB] at h
  have e1 : {s | ∃ K, ∀ fuel, K ≤ fuel → ∃ out c t w,
      runSimulation U G L fuel (newObj (sp p.1) { opts with nsimu := k } extra (ms p.2) data) s false = .ok out ∧
      out.results.s2chain = some c ∧ out.results.chain[j]? = some (finVec t) ∧
      c[j]? = some (finVec w) ∧ (t, w) ∈ B} =ᵐ[μ] {s | (T^[j] (p, s)).1 ∈ B} := by
    filter_upwards [hrun k hk p hpd] with s hs
    obtain ⟨K, hK⟩ := hs
    refine propext ⟨?_, fun hB' => ?_⟩
    · rintro ⟨K', hK'⟩
      obtain ⟨out, ho, c, hc, hr⟩ := hK (max K K') (le_max_left _ _)
      obtain ⟨out', c', t, w, ho', hc', ht, hw, hB'⟩ := hK' (max K K') (le_max_right _ _)
      rw [ho] at ho'
      cases ho'
      rw [hc] at hc'
      cases hc'
      rw [(hr j hjk).1] at ht
      rw [(hr j hjk).2] at hw
      have e1 : (T^[j] (p, s)).1.1 = t := finVec_injective (Option.some.inj ht)
      have e2 : (T^[j] (p, s)).1.2 = w := finVec_injective (Option.some.inj hw)
      change (T^[j] (p, s)).1 ∈ B
      rw [show (T^[j] (p, s)).1 = (t, w) from Prod.ext e1 e2]
      exact hB'
    · refine ⟨K, fun fuel hf => ?_⟩
      obtain ⟨out, ho, c, hc, hr⟩ := hK fuel hf
      exact ⟨out, c, _, _, ho, hc, (hr j hjk).1, (hr j hjk).2, hB'⟩
  have e2 : (jointLaw flags specs q r Nobs N0 S20).real B = (jointPosterior flags specs q r Nobs N0 S20).real B /
      (jointPosterior flags specs q r Nobs N0 S20).real Set.univ := by
    unfold jointLaw Measure.real
    rw [Measure.smul_apply, smul_eq_mul, ENNReal.toReal_mul, ENNReal.toReal_inv, inv_mul_eq_div]
  rw [measureReal_congr e1, ← e2]
  exact h

/-- the runs whose average is close, given the rows -/
theorem joint_close {T : ((Fin (nS flags) → ℝ) × (Fin m → ℝ)) × σ → ((Fin (nS flags) → ℝ) × (Fin m → ℝ)) × σ}
    (hT : Fresh μ T) {k : ℕ} {p : (Fin (nS flags) → ℝ) × (Fin m → ℝ)}
    (hrun : ∀ᵐ s ∂μ, ∃ K, ∀ fuel, K ≤ fuel →
        ∃ out, runSimulation U G L fuel (newObj (sp p.1) { opts with nsimu := k } extra (ms p.2) data) s false =
            .ok out ∧
          ∃ c, out.results.s2chain = some c ∧ ∀ j : ℕ, (j : ℤ) < k →
            out.results.chain[j]? = some (finVec (T^[j] (p, s)).1.1) ∧
            c[j]? = some (finVec (T^[j] (p, s)).1.2))
    {f : (Fin (nS flags) → ℝ) × (Fin m → ℝ) → ℝ} (hf : Measurable f) {η ε : ℝ}
    (h : μ.real {s | η ≤ |(∑ j ∈ Finset.range k, f (T^[j] (p, s)).1) / k -
      ∫ z, f z ∂jointLaw flags specs q r Nobs N0 S20|} ≤ ε) :
    1 - ε ≤ μ.real {s | ∃ K, ∀ fuel, K ≤ fuel → ∃ out s2, ∃ t : ℕ → (Fin (nS flags) → ℝ) × (Fin m → ℝ),
              runSimulation U G L fuel (newObj (sp p.1) { opts with nsimu := k } extra (ms p.2) data) s false =
                .ok out ∧ out.results.s2chain = some s2 ∧
              (∀ j : ℕ, j < k → out.results.chain[j]? = some (finVec (t j).1) ∧ s2[j]? = some (finVec (t j).2)) ∧
              |(∑ j ∈ Finset.range k, f (t j)) / k - (∫ z, f z ∂jointPosterior flags specs q r Nobs N0 S20) /
                (jointPosterior flags specs q r Nobs N0 S20).real Set.univ| < η} := by
  have e2 : ∫ z, f z ∂jointLaw flags specs q r Nobs N0 S20 =
      (∫ z, f z ∂jointPosterior flags specs q r Nobs N0 S20) /
      (jointPosterior flags specs q r Nobs N0 S20).real Set.univ := by
    unfold jointLaw Measure.real
    rw [integral_smul_measure, ENNReal.toReal_inv, smul_eq_mul, inv_mul_eq_div]
  rw [e2] at h
  set avg := (∫ z, f z ∂jointPosterior flags specs q r Nobs N0 S20) /
    (jointPosterior flags specs q r Nobs N0 S20).real Set.univ
  have hm : Measurable fun s => |(∑ j ∈ Finset.range k, f (T^[j] (p, s)).1) / k - avg| := by
    have h1 : Measurable fun s => ∑ j ∈ Finset.range k, f (T^[j] (p, s)).1 :=
      Finset.measurable_sum _ fun j _ => hf.comp (hT.measurable_row j p)
    exact ((h1.div_const _).sub_const _).abs
  have hms : MeasurableSet {s | η ≤ |(∑ j ∈ Finset.range k, f (T^[j] (p, s)).1) / k - avg|} :=
    measurableSet_le measurable_const hm
  have hc' := probReal_compl_eq_one_sub (μ := μ) hms
  calc 1 - ε
      ≤ 1 - μ.real {s | η ≤ |(∑ j ∈ Finset.range k, f (T^[j] (p, s)).1) / k - avg|} := by linarith
    _ = μ.real {s | η ≤ |(∑ j ∈ Finset.range k, f (T^[j] (p, s)).1) / k - avg|}ᶜ := hc'.symm
    _ ≤ _ := by
      refine ENNReal.toReal_mono (measure_ne_top μ _) (measure_mono_ae ?_)
      filter_upwards [hrun] with s hs hη'
      obtain ⟨K, hK⟩ := hs
      refine ⟨K, fun fuel hf' => ?_⟩
      obtain ⟨out, ho, s2, hs2, hr⟩ := hK fuel hf'
      refine ⟨out, s2, fun j => (T^[j] (p, s)).1, ho, hs2, fun j hj => hr j (by exact_mod_cast hj), ?_⟩
      exact not_le.1 hη'

/-- **C115** averages along both chains approach the means of the joint posterior, whatever the limits, the sums of
squares and the prior: from every start and for all long enough runs, the average over the rows of any function
of values and variances bounded by `c` is within `η` of its posterior mean with probability at least `1 - ε`. -/
theorem C115_averages
    (H : ∀ k : ℤ, 1 < k → JointProblem U G L specs sp { opts with nsimu := k } extra ms data q r Nobs N0 S20 dom)
    (D : IdealRng G (nS flags) μ) (D1 : IdealRng G 1 μ)
    (hZ0 : jointPosterior flags specs q r Nobs N0 S20 Set.univ ≠ 0)
    (hZt : jointPosterior flags specs q r Nobs N0 S20 Set.univ ≠ ⊤)
    {p : (Fin (nS flags) → ℝ) × (Fin m → ℝ)} (hpd : p ∈ dom) {c η ε : ℝ} (hc : 0 < c) (hη : 0 < η) (hε : 0 < ε) :
    ∃ K0 : ℕ, ∀ k : ℕ, K0 ≤ k → ∀ f : (Fin (nS flags) → ℝ) × (Fin m → ℝ) → ℝ, Measurable f →
        (∀ z, InLimits flags specs (finVec z.1) → (∀ j, 0 < z.2 j) → |f z| ≤ c) →
        1 - ε ≤ μ.real {s | ∃ K, ∀ fuel, K ≤ fuel → ∃ out s2, ∃ t : ℕ → (Fin (nS flags) → ℝ) × (Fin m → ℝ),
              runSimulation U G L fuel (newObj (sp p.1) { opts with nsimu := k } extra (ms p.2) data) s false =
                .ok out ∧ out.results.s2chain = some s2 ∧
              (∀ j : ℕ, j < k → out.results.chain[j]? = some (finVec (t j).1) ∧ s2[j]? = some (finVec (t j).2)) ∧
              |(∑ j ∈ Finset.range k, f (t j)) / k - (∫ z, f z ∂jointPosterior flags specs q r Nobs N0 S20) /
                (jointPosterior flags specs q r Nobs N0 S20).real Set.univ| < η} := by
  obtain ⟨hS0, T, hT, hsp, hkeep, hrun⟩ := joint_harris H D D1 hZ0 hZt ⟨p, hpd⟩
  have hp := (H 2 (by norm_num)).within p hpd
  obtain ⟨K, hK⟩ := hT.average (hsp p hp) (measurableSet_jointStarts flags specs m) hkeep hS0 hp hc hη hε
  refine ⟨K + 2, fun k hk f hf hfc => ?_⟩
  exact joint_close hT.fresh (hrun k (by omega) p hpd) hf (hK k (by omega) f hf fun z hz => hfc z hz.1 hz.2)

/-- **C115**, functions with a finite posterior mean, such as the values and the variances themselves. -/
theorem C115_means
    (H : ∀ k : ℤ, 1 < k → JointProblem U G L specs sp { opts with nsimu := k } extra ms data q r Nobs N0 S20 dom)
    (D : IdealRng G (nS flags) μ) (D1 : IdealRng G 1 μ)
    (hZ0 : jointPosterior flags specs q r Nobs N0 S20 Set.univ ≠ 0)
    (hZt : jointPosterior flags specs q r Nobs N0 S20 Set.univ ≠ ⊤)
    {p : (Fin (nS flags) → ℝ) × (Fin m → ℝ)} (hpd : p ∈ dom) {η ε : ℝ} (hη : 0 < η) (hε : 0 < ε)
    {f : (Fin (nS flags) → ℝ) × (Fin m → ℝ) → ℝ} (hf : Measurable f)
    (hfi : Integrable f (jointPosterior flags specs q r Nobs N0 S20)) :
    ∃ K0 : ℕ, ∀ k : ℕ, K0 ≤ k →
        1 - ε ≤ μ.real {s | ∃ K, ∀ fuel, K ≤ fuel → ∃ out s2, ∃ t : ℕ → (Fin (nS flags) → ℝ) × (Fin m → ℝ),
              runSimulation U G L fuel (newObj (sp p.1) { opts with nsimu := k } extra (ms p.2) data) s false =
                .ok out ∧ out.results.s2chain = some s2 ∧
              (∀ j : ℕ, j < k → out.results.chain[j]? = some (finVec (t j).1) ∧ s2[j]? = some (finVec (t j).2)) ∧
              |(∑ j ∈ Finset.range k, f (t j)) / k - (∫ z, f z ∂jointPosterior flags specs q r Nobs N0 S20) /
                (jointPosterior flags specs q r Nobs N0 S20).real Set.univ| < η} := by
  obtain ⟨hS0, T, hT, hsp, hkeep, hrun⟩ := joint_harris H D D1 hZ0 hZt ⟨p, hpd⟩
  have hp := (H 2 (by norm_num)).within p hpd
  have hfi' : Integrable f (jointLaw flags specs q r Nobs N0 S20) := hfi.smul_measure (ENNReal.inv_ne_top.2 hZ0)
  obtain ⟨K, hK⟩ := hT.average_integrable (measurableSet_jointStarts flags specs m) hsp hkeep hS0 hp hη hε hf hfi'
  refine ⟨K + 2, fun k hk => ?_⟩
  exact joint_close hT.fresh (hrun k (by omega) p hpd) hf (hK k (by omega))

theorem joint_values_lintegral (hq : Measurable q) (hr : Measurable r) (hshape : ∀ j, 0 < N0 j + Nobs j)
    (hrate : ∀ θ, InLimits flags specs (finVec θ) → ∀ j, 0 < N0 j * S20 j + q θ j)
    {g : (Fin (nS flags) → ℝ) → ℝ≥0∞} (hg : Measurable g) :
    ∫⁻ p, g p.1 ∂jointPosterior flags specs q r Nobs N0 S20 =
      ∫⁻ θ, valueFactor flags specs q r Nobs N0 S20 θ * g θ := by
  classical
  rw [jointPosterior_lintegral hq hr hshape hrate (g := fun p => g p.1) (hg.comp measurable_fst)]
  refine lintegral_congr fun θ => ?_
  by_cases hθ : InLimits flags specs (finVec θ)
  · have hm : Measurable fun v : Fin m → ℝ =>
        ∏ j, invGammaPDF (1 / 2 * (N0 j + Nobs j)) ((N0 j * S20 j + q θ j) / 2) (v j) :=
      Finset.measurable_prod _ fun j _ => (measurable_invGammaPDF _).comp
        (measurable_const.prodMk (measurable_pi_apply j))
    dsimp only
    rw [lintegral_mul_const _ hm, lintegral_prod_invGamma (fun j => by have := hshape j; positivity)
      (fun j => by have := hrate θ hθ j; positivity), one_mul]
  · simp [valueFactor, hθ]

end run

/-! ### Examples -/

/-- The problem of `XRun.jointProblem` without limits. -/
theorem XRun.freeJoint (k : ℤ) (hk : 1 < k) :
    JointProblem (m := 1) XRun.user (coinRng (nS XRun.flags)) exactLapack
    XRun.freeSpecs XRun.freeAt (defineSimulationOptions { nsimu := k, method := .dr, updatesigma := true })
    (XRun.extra 1 1) XRun.settingsAt XRun.data (fun θ _ => θ ⟨0, by decide⟩ * θ ⟨0, by decide⟩) (fun _ => 0)
    (fun _ => 5) (fun _ => 1) (fun _ => 1)
    {p | InLimits XRun.flags XRun.freeSpecs (finVec p.1) ∧ ∀ j, 0 < p.2 j} where
  starts := (XRun.freeProblem k hk).starts
  within p hp := hp
  exact p _ := {
    lapack := exactLapack_ok
    draws := fun _ => ⟨_, rfl⟩
    adjust := ⟨1, rfl⟩
    burnin := ⟨10, rfl, by norm_num⟩
    drscale := ⟨[5], rfl, by simp⟩
    noRam := rfl
    weight := .inl rfl
    scale := ⟨_, .inl ⟨rfl, rfl⟩⟩
    RDR := nofun }
  valid p hp := {
    nsimu := hk
    sampled := by decide
    initial := fun _ => ⟨_, rfl⟩
    limits := fun i hi => ((XRun.freeProblem k hk).valid p.1 hp.1).limits i hi
    localFit := .inl rfl
    sos := fun v => by simp [XRun.user]
    data := show XRun.data.n ≠ [] by decide
    settings := ⟨fun v hv => by cases hv; exact .inl rfl, fun v hv => by cases hv; exact .inl rfl, nofun,
      .inr (.inl rfl), .inl (show XRun.data.n.length ≤ 1 by decide)⟩
    settingsFresh := rfl
    observations := rfl
    covariance := .inl ⟨fun _ => 1, rfl, fun _ => one_pos⟩
    drscale := by change [XR.fin 5] ≠ []; simp
    factors := nofun
    delayed := fun _ => ⟨.inl rfl, rfl, fun h => absurd h (show ¬ (0 : ℤ) < 0 by decide)⟩
    noRestart := rfl }
  noAdaptation := show (0 : ℤ) ≤ 0 by decide
  covariance := rfl
  noFactors := rfl
  sosDim := one_pos
  sos := (XRun.freeProblem k hk).sos
  prior _ _ _ _ _ _ := rfl
  settings p _ := ⟨.inl rfl, .inr ⟨_, rfl, .inl ⟨p.2 0, rfl, fun j => by rw [Subsingleton.elim j 0]⟩⟩,
    .inr (.inr ⟨_, rfl, .inl ⟨1, rfl, fun _ => rfl⟩⟩), .inl (.inl ⟨1, rfl, fun _ => rfl⟩),
    .inl ⟨5, by decide, fun _ => by norm_num⟩⟩
  shapes _ := by norm_num
  rates θ _ _ := by have := mul_self_nonneg (θ ⟨0, by decide⟩); linarith
  measurable := ⟨by fun_prop, measurable_const⟩

theorem XRun.free_factor (θ : Fin (nS XRun.flags) → ℝ) : valueFactor (m := 1) XRun.flags XRun.freeSpecs
    (fun θ _ => θ ⟨0, by decide⟩ * θ ⟨0, by decide⟩) (fun _ => 0) (fun _ => 5) (fun _ => 1) (fun _ => 1) θ =
    ENNReal.ofReal (∏ i, (16 * ((1 + θ i ^ 2) ^ 3)⁻¹)) := by
  unfold valueFactor
  rw [if_pos (XRun.free_inLimits θ)]
  have hu : (Finset.univ : Finset (Fin (nS XRun.flags))) = {⟨0, by decide⟩} := by decide
  rw [hu, Finset.prod_singleton]
  congr 1
  have hG : Real.Gamma 3 = 2 := by
    rw [show (3 : ℝ) = (2 : ℕ) + 1 by norm_num, Real.Gamma_nat_eq_factorial]
    norm_num
  simp only [mul_zero, Real.exp_zero, one_mul, Finset.univ_unique, Finset.prod_singleton]
  rw [show (1 / 2 * (1 + 5) : ℝ) = 3 by norm_num, hG]
  rw [show ((3 : ℝ)) = ((3 : ℕ) : ℝ) by norm_num, Real.rpow_natCast]
  have : (0 : ℝ) < 1 + θ ⟨0, by decide⟩ ^ 2 := by positivity
  field_simp
  ring

theorem XRun.free_tail (x : ℝ) : 16 * ((1 + x ^ 2) ^ 3)⁻¹ ≤ 16 * (1 + x ^ 2)⁻¹ ∧
    |x| * (16 * ((1 + x ^ 2) ^ 3)⁻¹) ≤ 16 * (1 + x ^ 2)⁻¹ := by
  have h1 : 1 ≤ 1 + x ^ 2 := by nlinarith [sq_nonneg x]
  have h0 : 0 < 1 + x ^ 2 := by linarith
  have hx : |x| ≤ 1 + x ^ 2 := by nlinarith [sq_abs x, sq_nonneg (|x| - 1), abs_nonneg x]
  constructor
  · exact mul_le_mul_of_nonneg_left (inv_anti₀ h0 (by nlinarith [mul_pos h0 h0])) (by norm_num)
  · rw [mul_left_comm]
    refine mul_le_mul_of_nonneg_left ?_ (by norm_num)
    rw [← div_eq_mul_inv, ← one_div, div_le_div_iff₀ (by positivity) h0]
    nlinarith [mul_pos h0 h0, mul_le_mul_of_nonneg_right hx h0.le]

theorem XRun.free_integrable :
    Integrable fun θ : Fin (nS XRun.flags) → ℝ => ∏ i, (16 * (1 + θ i ^ 2)⁻¹) :=
  Integrable.fintype_prod (f := fun _ x => 16 * (1 + x ^ 2)⁻¹) fun _ => integrable_inv_one_add_sq.const_mul _

/-- That joint posterior has a finite integral. -/
theorem XRun.freeJoint_mass :
    jointPosterior (m := 1) XRun.flags XRun.freeSpecs (fun θ _ => θ ⟨0, by decide⟩ * θ ⟨0, by decide⟩)
      (fun _ => 0) (fun _ => 5) (fun _ => 1) (fun _ => 1) Set.univ ≠ 0 ∧
    jointPosterior (m := 1) XRun.flags XRun.freeSpecs (fun θ _ => θ ⟨0, by decide⟩ * θ ⟨0, by decide⟩)
      (fun _ => 0) (fun _ => 5) (fun _ => 1) (fun _ => 1) Set.univ ≠ ⊤ := by
  have H := XRun.freeJoint 2 (by norm_num)
  have hZ := joint_values_lintegral H.measurable.1 H.measurable.2 H.shapes H.rates (g := fun _ => 1) measurable_const
  rw [lintegral_one] at hZ
  rw [hZ]
  simp only [mul_one, XRun.free_factor]
  constructor
  · intro h0
    rw [lintegral_eq_zero_iff (by fun_prop)] at h0
    obtain ⟨θ, hθ⟩ := h0.exists
    exact absurd (ENNReal.ofReal_eq_zero.1 hθ) (not_le.2 (Finset.prod_pos fun i _ => by positivity))
  · refine ne_top_of_le_ne_top XRun.free_integrable.lintegral_lt_top.ne (lintegral_mono fun θ => ?_)
    exact ENNReal.ofReal_le_ofReal (Finset.prod_le_prod (fun i _ => by positivity) fun i _ => (XRun.free_tail _).1)

/-- The parameter has a finite posterior mean. -/
theorem XRun.freeJoint_mean :
    Integrable (fun z : (Fin (nS XRun.flags) → ℝ) × (Fin 1 → ℝ) => z.1 ⟨0, by decide⟩)
      (jointPosterior (m := 1) XRun.flags XRun.freeSpecs (fun θ _ => θ ⟨0, by decide⟩ * θ ⟨0, by decide⟩)
        (fun _ => 0) (fun _ => 5) (fun _ => 1) (fun _ => 1)) := by
  have H := XRun.freeJoint 2 (by norm_num)
  refine ⟨((measurable_pi_apply _).comp measurable_fst).aestronglyMeasurable, ?_⟩
  unfold HasFiniteIntegral
  rw [joint_values_lintegral H.measurable.1 H.measurable.2 H.shapes H.rates
    (g := fun θ => ‖θ ⟨0, by decide⟩‖ₑ) (by fun_prop)]
  refine lt_of_le_of_lt (lintegral_mono fun θ => ?_) XRun.free_integrable.lintegral_lt_top
  have hu : (Finset.univ : Finset (Fin (nS XRun.flags))) = {⟨0, by decide⟩} := by decide
  rw [XRun.free_factor, hu, Finset.prod_singleton, Finset.prod_singleton, ← ofReal_norm, Real.norm_eq_abs,
    ← ENNReal.ofReal_mul (by positivity), mul_comm]
  exact ENNReal.ofReal_le_ofReal (XRun.free_tail _).2

/-- C114 for that problem: from value 1000000 and variance 2, the probability that value and variance of row `j`
are both at most 1 is within `1/100` of that of the joint posterior from some `j` on. -/
example : ∃ J : ℕ, ∀ j, J ≤ j → ∀ k : ℤ, 1 < k → (j : ℤ) < k →
    |(coinLaw (nS XRun.flags)).real {s | ∃ K, ∀ fuel, K ≤ fuel → ∃ out c t w,
        runSimulation XRun.user (coinRng (nS XRun.flags)) exactLapack fuel
          (newObj (m := 1) (XRun.freeAt fun _ => 1000000)
            (defineSimulationOptions { nsimu := k, method := .dr, updatesigma := true })
            (XRun.extra 1 1) (XRun.settingsAt fun _ => 2) XRun.data) s false = .ok out ∧
        out.results.s2chain = some c ∧ out.results.chain[j]? = some (finVec t) ∧ c[j]? = some (finVec w) ∧
        (t, w) ∈ {z : (Fin (nS XRun.flags) → ℝ) × (Fin 1 → ℝ) | z.1 ⟨0, by decide⟩ ≤ 1 ∧ z.2 0 ≤ 1}} -
      (jointPosterior (m := 1) XRun.flags XRun.freeSpecs (fun θ _ => θ ⟨0, by decide⟩ * θ ⟨0, by decide⟩)
        (fun _ => 0) (fun _ => 5) (fun _ => 1) (fun _ => 1)).real
        {z : (Fin (nS XRun.flags) → ℝ) × (Fin 1 → ℝ) | z.1 ⟨0, by decide⟩ ≤ 1 ∧ z.2 0 ≤ 1} /
      (jointPosterior (m := 1) XRun.flags XRun.freeSpecs (fun θ _ => θ ⟨0, by decide⟩ * θ ⟨0, by decide⟩)
        (fun _ => 0) (fun _ => 5) (fun _ => 1) (fun _ => 1)).real Set.univ| ≤ 1 / 100 := by
  have D1 : IdealRng (coinRng (nS XRun.flags)) 1 (coinLaw (nS XRun.flags)) := by
    rw [XRun.nS_flags]; exact coinIdeal 1
  obtain ⟨J, h⟩ := C114_convergence
    (opts := defineSimulationOptions { nsimu := 2, method := .dr, updatesigma := true }) XRun.freeJoint
    (coinIdeal _) D1 XRun.freeJoint_mass.1 XRun.freeJoint_mass.2 (p := (fun _ => 1000000, fun _ => 2))
    ⟨XRun.free_inLimits _, fun _ => by norm_num⟩ (ε := 1 / 100) (by norm_num)
  exact ⟨J, fun j hj k hk hjk => h j hj k hk hjk _
    ((measurableSet_le ((measurable_pi_apply _).comp measurable_fst) measurable_const).inter
      (measurableSet_le ((measurable_pi_apply _).comp measurable_snd) measurable_const))⟩

/-- C115 for that problem: the fraction of rows whose variance is at most 1. -/
example : ∃ K0 : ℕ, ∀ k : ℕ, K0 ≤ k →
    1 - 1 / 100 ≤
      (coinLaw (nS XRun.flags)).real {s | ∃ K, ∀ fuel, K ≤ fuel → ∃ out s2,
        ∃ t : ℕ → (Fin (nS XRun.flags) → ℝ) × (Fin 1 → ℝ),
        runSimulation XRun.user (coinRng (nS XRun.flags)) exactLapack fuel
          (newObj (m := 1) (XRun.freeAt fun _ => 1000000)
            (defineSimulationOptions { nsimu := k, method := .dr, updatesigma := true })
            (XRun.extra 1 1) (XRun.settingsAt fun _ => 2) XRun.data) s false = .ok out ∧
        out.results.s2chain = some s2 ∧
        (∀ j : ℕ, j < k → out.results.chain[j]? = some (finVec (t j).1) ∧ s2[j]? = some (finVec (t j).2)) ∧
        |(∑ j ∈ Finset.range k, Set.indicator {z : (Fin (nS XRun.flags) → ℝ) × (Fin 1 → ℝ) | z.2 0 ≤ 1}
            (fun _ => (1 : ℝ)) (t j)) / k -
          (∫ z, Set.indicator {z : (Fin (nS XRun.flags) → ℝ) × (Fin 1 → ℝ) | z.2 0 ≤ 1} (fun _ => (1 : ℝ)) z
            ∂(jointPosterior (m := 1) XRun.flags XRun.freeSpecs
              (fun θ _ => θ ⟨0, by decide⟩ * θ ⟨0, by decide⟩) (fun _ => 0) (fun _ => 5) (fun _ => 1) (fun _ => 1))) /
          (jointPosterior (m := 1) XRun.flags XRun.freeSpecs
            (fun θ _ => θ ⟨0, by decide⟩ * θ ⟨0, by decide⟩) (fun _ => 0) (fun _ => 5) (fun _ => 1)
            (fun _ => 1)).real Set.univ| < 1 / 10} := by
  have D1 : IdealRng (coinRng (nS XRun.flags)) 1 (coinLaw (nS XRun.flags)) := by
    rw [XRun.nS_flags]; exact coinIdeal 1
  obtain ⟨K0, h⟩ := C115_averages
    (opts := defineSimulationOptions { nsimu := 2, method := .dr, updatesigma := true }) XRun.freeJoint
    (coinIdeal _) D1 XRun.freeJoint_mass.1 XRun.freeJoint_mass.2 (p := (fun _ => 1000000, fun _ => 2))
    ⟨XRun.free_inLimits _, fun _ => by norm_num⟩ (c := 1) (η := 1 / 10) (ε := 1 / 100) one_pos (by norm_num)
    (by norm_num)
  refine ⟨K0, fun k hk => h k hk (Set.indicator {z | z.2 0 ≤ 1} fun _ => 1) ?_ ?_⟩
  · exact measurable_const.indicator (measurableSet_le ((measurable_pi_apply _).comp measurable_snd) measurable_const)
  · intro z _ _
    by_cases hz : z.2 0 ≤ 1
    · rw [Set.indicator_of_mem (by exact hz)]; simp
    · rw [Set.indicator_of_notMem (by exact hz)]; simp

/-- C115 for that problem: the average of the values themselves. -/
example : ∃ K0 : ℕ, ∀ k : ℕ, K0 ≤ k →
    1 - 1 / 100 ≤
      (coinLaw (nS XRun.flags)).real {s | ∃ K, ∀ fuel, K ≤ fuel → ∃ out s2,
        ∃ t : ℕ → (Fin (nS XRun.flags) → ℝ) × (Fin 1 → ℝ),
        runSimulation XRun.user (coinRng (nS XRun.flags)) exactLapack fuel
          (newObj (m := 1) (XRun.freeAt fun _ => 1000000)
            (defineSimulationOptions { nsimu := k, method := .dr, updatesigma := true })
            (XRun.extra 1 1) (XRun.settingsAt fun _ => 2) XRun.data) s false = .ok out ∧
        out.results.s2chain = some s2 ∧
        (∀ j : ℕ, j < k → out.results.chain[j]? = some (finVec (t j).1) ∧ s2[j]? = some (finVec (t j).2)) ∧
        |(∑ j ∈ Finset.range k, (t j).1 ⟨0, by decide⟩) / k -
          (∫ z, z.1 ⟨0, by decide⟩ ∂(jointPosterior (m := 1) XRun.flags XRun.freeSpecs
              (fun θ _ => θ ⟨0, by decide⟩ * θ ⟨0, by decide⟩) (fun _ => 0) (fun _ => 5) (fun _ => 1) (fun _ => 1))) /
          (jointPosterior (m := 1) XRun.flags XRun.freeSpecs
            (fun θ _ => θ ⟨0, by decide⟩ * θ ⟨0, by decide⟩) (fun _ => 0) (fun _ => 5) (fun _ => 1)
            (fun _ => 1)).real Set.univ| < 1 / 10} := by
  have D1 : IdealRng (coinRng (nS XRun.flags)) 1 (coinLaw (nS XRun.flags)) := by
    rw [XRun.nS_flags]; exact coinIdeal 1
  exact C115_means
    (opts := defineSimulationOptions { nsimu := 2, method := .dr, updatesigma := true }) XRun.freeJoint
    (coinIdeal _) D1 XRun.freeJoint_mass.1 XRun.freeJoint_mass.2 (p := (fun _ => 1000000, fun _ => 2))
    ⟨XRun.free_inLimits _, fun _ => by norm_num⟩ (η := 1 / 10) (ε := 1 / 100) (by norm_num)
    (by norm_num) (f := fun z => z.1 ⟨0, by decide⟩) ((measurable_pi_apply _).comp measurable_fst)
    XRun.freeJoint_mean

end Verif
