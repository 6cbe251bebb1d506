import Verif.Props.JointInvariance
import Verif.Lemmas.MoveLower

/-! # Long chains represent the posterior

C85: the law of row `j` of the chain approaches the posterior geometrically, from every start.
C86: averages along the chain approach the posterior means. -/

set_option linter.unusedSectionVars false

namespace Verif
open MeasureTheory Function
open scoped ENNReal Matrix

section box
variable {N m : ℕ} {flags : Fin N → Bool}

/-- Every sampled parameter has finite limits, the lower below the upper. -/
def FiniteLimits (flags : Fin N → Bool) (specs : Fin N → ParamSpec XR) : Prop :=
  ∀ k, flags k = true → ∃ a b : ℝ, a < b ∧ (specs k).minimum = .fin a ∧ (specs k).maximum = .fin b

theorem FiniteLimits.box {specs : Fin N → ParamSpec XR} (h : FiniteLimits flags specs) :
    ∃ a b : Fin (nS flags) → ℝ, (∀ i, a i < b i) ∧
      {θ : Fin (nS flags) → ℝ | InLimits flags specs (finVec θ)} = Set.Icc a b := by
  have h' : ∀ i, ∃ a b : ℝ, a < b ∧ (specs (parindOf flags i)).minimum = .fin a ∧
      (specs (parindOf flags i)).maximum = .fin b := fun i => h _ (flags_parindOf i)
  choose a b hab h1 h2 using h'
  refine ⟨a, b, hab, ?_⟩
  ext θ
  simp only [Set.mem_setOf_eq, Set.mem_Icc, Pi.le_def, InLimits]
  constructor
  · intro hθ
    refine ⟨fun i => ?_, fun i => ?_⟩
    · have := (hθ i _ (sampled_get i)).1
      rw [h1 i] at this
      simpa [finVec] using this
    · have := (hθ i _ (sampled_get i)).2
      rw [h2 i] at this
      simpa [finVec] using this
  · rintro ⟨ha, hb⟩ i k hk
    rw [sampled_get] at hk
    cases hk
    rw [h1 i, h2 i]
    exact ⟨by simpa [finVec] using ha i, by simpa [finVec] using hb i⟩

theorem FiniteLimits.bounded {specs : Fin N → ParamSpec XR} (h : FiniteLimits flags specs) :
    ∃ C : ℝ, ∀ x y : Fin (nS flags) → ℝ, InLimits flags specs (finVec x) → InLimits flags specs (finVec y) →
      ∀ i, |y i - x i| ≤ C := by
  obtain ⟨a, b, hab, hbox⟩ := h.box
  refine ⟨∑ i, (b i - a i), fun x y hx hy i => ?_⟩
  have hx' : x ∈ Set.Icc a b := by rw [← hbox]; exact hx
  have hy' : y ∈ Set.Icc a b := by rw [← hbox]; exact hy
  have h1 : b i - a i ≤ ∑ i, (b i - a i) :=
    Finset.single_le_sum (f := fun i => b i - a i) (fun j _ => by have := hab j; linarith) (Finset.mem_univ i)
  have := hx'.1 i; have := hx'.2 i; have := hy'.1 i; have := hy'.2 i
  rw [abs_le]
  constructor <;> linarith

theorem FiniteLimits.volume {specs : Fin N → ParamSpec XR} (h : FiniteLimits flags specs) :
    (volume : Measure (Fin (nS flags) → ℝ)) {θ | InLimits flags specs (finVec θ)} ≠ 0 ∧
    (volume : Measure (Fin (nS flags) → ℝ)) {θ | InLimits flags specs (finVec θ)} ≠ ⊤ := by
  obtain ⟨a, b, hab, hbox⟩ := h.box
  rw [hbox, Real.volume_Icc_pi]
  refine ⟨?_, ENNReal.prod_ne_top fun i _ => ENNReal.ofReal_ne_top⟩
  rw [Finset.prod_ne_zero_iff]
  intro i _
  rw [Ne, ENNReal.ofReal_eq_zero, not_le]
  have := hab i
  linarith

end box

section run
variable {σ : Type} [MeasurableSpace σ] {μ : Measure σ} {G : Rng σ XR} {N m : ℕ} {flags : Fin N → Bool}

theorem posterior_mass {specs : Fin N → ParamSpec XR} (h : FiniteLimits flags specs)
    {q : (Fin (nS flags) → ℝ) → Fin m → ℝ} {r : (Fin (nS flags) → ℝ) → ℝ} {v : Fin m → ℝ}
    (hq : Measurable q) (hr : Measurable r)
    {M : ℝ} (hM : ∀ θ, posteriorDensity flags specs q r v θ ≤ M) :
    posteriorMeasure flags specs q r v Set.univ ≠ 0 ∧ posteriorMeasure flags specs q r v Set.univ ≠ ⊤ ∧
    posteriorMeasure flags specs q r v {θ | InLimits flags specs (finVec θ)}ᶜ = 0 := by
  have hS := measurableSet_inLimits (flags := flags) specs
  have hmeas := (measurable_posteriorDensity (flags := flags) (specs := specs) (v := v) hq hr).ennreal_ofReal
  unfold posteriorMeasure
  rw [withDensity_apply _ MeasurableSet.univ, withDensity_apply _ hS.compl, Measure.restrict_univ]
  have hind : ∀ θ, ENNReal.ofReal (posteriorDensity flags specs q r v θ) =
      Set.indicator {θ | InLimits flags specs (finVec θ)}
        (fun θ => ENNReal.ofReal (Real.exp (-(1 / 2) * ∑ i, q θ i / v i - 1 / 2 * r θ))) θ := by
    intro θ
    unfold posteriorDensity
    by_cases hθ : θ ∈ {θ | InLimits flags specs (finVec θ)}
    · rw [Set.indicator_of_mem hθ, Set.indicator_of_mem hθ]
    · rw [Set.indicator_of_notMem hθ, Set.indicator_of_notMem hθ, ENNReal.ofReal_zero]
  refine ⟨fun h0 => ?_, ?_, ?_⟩
  · rw [lintegral_eq_zero_iff hmeas] at h0
    apply h.volume.1
    refine measure_mono_null (fun θ hθ => ?_) h0
    intro h1
    have h2 : ENNReal.ofReal (posteriorDensity flags specs q r v θ) = 0 := h1
    rw [hind, Set.indicator_of_mem hθ] at h2
    exact absurd h2 (by simp [Real.exp_pos])
  · refine ne_top_of_le_ne_top (b := ∫⁻ θ in {θ | InLimits flags specs (finVec θ)}, ENNReal.ofReal M) ?_ ?_
    · rw [setLIntegral_const]
      exact ENNReal.mul_ne_top ENNReal.ofReal_ne_top h.volume.2
    · rw [← lintegral_indicator hS]
      refine lintegral_mono fun θ => ?_
      by_cases hθ : θ ∈ {θ | InLimits flags specs (finVec θ)}
      · rw [Set.indicator_of_mem hθ]
        exact ENNReal.ofReal_le_ofReal (hM θ)
      · rw [Set.indicator_of_notMem hθ, hind, Set.indicator_of_notMem hθ]
  · rw [← lintegral_indicator hS.compl]
    refine (lintegral_congr fun θ => ?_).trans lintegral_zero
    by_cases hθ : θ ∈ {θ | InLimits flags specs (finVec θ)}
    · rw [Set.indicator_of_notMem (by simpa using hθ)]
    · rw [Set.indicator_of_mem hθ, hind, Set.indicator_of_notMem hθ]

/-- a law multiplied by a constant is kept as well -/
theorem MeasurePreserving.smul_left {X : Type} [MeasurableSpace X] [SFinite μ] {π : Measure X} [SFinite π]
    {T : X × σ → X × σ} (h : MeasurePreserving T (π.prod μ) (π.prod μ)) (c : ℝ≥0∞) :
    MeasurePreserving T ((c • π).prod μ) ((c • π).prod μ) := by
  rw [Measure.prod_smul_left]
  exact ⟨h.measurable, by rw [Measure.map_smul, h.map_eq]⟩

variable [IsProbabilityMeasure μ] {U : UserFuns XR N (nS flags) m} {L : Lapack XR}
  {specs : Fin N → ParamSpec XR} {sp : (Fin (nS flags) → ℝ) → Fin N → ParamSpec XR} {opts : SimOpts XR}
  {extra : ExtraOpts XR (nS flags)} {ms : ModelSettings XR} {data : Data}
  {q : (Fin (nS flags) → ℝ) → Fin m → ℝ} {r : (Fin (nS flags) → ℝ) → ℝ} {v : Fin m → ℝ}

/-- the posterior as a probability law -/
noncomputable def posteriorLaw (flags : Fin N → Bool) (specs : Fin N → ParamSpec XR)
    (q : (Fin (nS flags) → ℝ) → Fin m → ℝ) (r : (Fin (nS flags) → ℝ) → ℝ) (v : Fin m → ℝ) :
    Measure (Fin (nS flags) → ℝ) :=
  (posteriorMeasure flags specs q r v Set.univ)⁻¹ • posteriorMeasure flags specs q r v

/-- The chains of all lengths come from one transition with a lower bound. -/
theorem fixed_doeblin
    (H : ∀ k : ℤ, 1 < k → FixedProblem U G L specs sp { opts with nsimu := k } extra ms data q r v)
    (D : IdealRng G (nS flags) μ) (hlim : FiniteLimits flags specs)
    {M : ℝ} (hM : ∀ θ, posteriorDensity flags specs q r v θ ≤ M) :
    IsProbabilityMeasure (posteriorLaw flags specs q r v) ∧
    posteriorLaw flags specs q r v {θ | InLimits flags specs (finVec θ)}ᶜ = 0 ∧
    ∃ ε : ℝ≥0∞, 0 < ε ∧ ∀ k : ℤ, 1 < k → ∃ T : (Fin (nS flags) → ℝ) × σ → (Fin (nS flags) → ℝ) × σ,
      Doeblin μ T {θ | InLimits flags specs (finVec θ)} 1 ε (posteriorLaw flags specs q r v) ∧
      MeasurePreserving T ((posteriorLaw flags specs q r v).prod μ) ((posteriorLaw flags specs q r v).prod μ) ∧
      ∀ x, InLimits flags specs (finVec x) → ∀ s fuel, ∃ out,
        runSimulation U G L fuel (newObj (sp x) { opts with nsimu := k } extra ms data) s false = .ok out ∧
        ∀ j : ℕ, (j : ℤ) < k → out.results.chain[j]? = some (finVec (T^[j] (x, s)).1) := by
  have H2 := H 2 (by norm_num)
  obtain ⟨hZ0, hZt, hZS⟩ := posterior_mass (v := v) hlim H2.measurable.1 H2.measurable.2 hM
  set Z := posteriorMeasure flags specs q r v Set.univ with hZ
  have hprob : IsProbabilityMeasure (posteriorLaw flags specs q r v) := ⟨by
    unfold posteriorLaw
    rw [Measure.smul_apply, smul_eq_mul, ← hZ, ENNReal.inv_mul_cancel hZ0 hZt]⟩
  have hS0 : posteriorLaw flags specs q r v {θ | InLimits flags specs (finVec θ)}ᶜ = 0 := by
    unfold posteriorLaw
    rw [Measure.smul_apply, hZS, smul_zero]
  refine ⟨hprob, hS0, ?_⟩
  obtain ⟨x0, hx0⟩ : ∃ x0 : Fin (nS flags) → ℝ, InLimits flags specs (finVec x0) := by
    by_contra hn
    apply hlim.volume.1
    rw [show {θ : Fin (nS flags) → ℝ | InLimits flags specs (finVec θ)} = ∅ from
      Set.eq_empty_iff_forall_notMem.2 fun θ hθ => hn ⟨θ, hθ⟩]
    exact measure_empty
  obtain ⟨C, hC⟩ := hlim.bounded
  have hdens : (fun θ => (pointAt (logPost flags specs q r v) θ).density) = posteriorDensity flags specs q r v :=
    funext (logPost_density v)
  have hd : Measurable fun θ => (pointAt (logPost flags specs q r v) θ).density := by
    rw [hdens]; exact measurable_posteriorDensity H2.measurable.1 H2.measurable.2
  have hlp : ∀ θ, logPost flags specs q r v θ ≠ none ↔ InLimits flags specs (finVec θ) := by
    intro θ
    unfold logPost
    by_cases h : InLimits flags specs (finVec θ)
    · simp [h]
    · simp [h]
  have hM0 : 0 < M := lt_of_lt_of_le (by
    rw [← congrFun hdens]; exact density_pos_iff.2 ((hlp x0).2 hx0)) (hM x0)
  obtain ⟨qc, Q, A, W, hqc, hA, hAW, -⟩ := fixed_rows H2 D hx0
  let ε : ℝ≥0∞ := gaussConst (A 0) *
    ENNReal.ofReal (Real.exp (-(1 / 2) * ∑ j, (∑ i, C * |W 0 i j|) ^ 2)) * ENNReal.ofReal M⁻¹ * Z
  have hε : 0 < ε := by
    refine ENNReal.mul_pos (ENNReal.mul_pos (ENNReal.mul_pos ?_ ?_).ne' ?_).ne' hZ0
    · exact (gaussConst_pos (hAW 0 (by omega))).ne'
    · simp [Real.exp_pos]
    · simp [hM0]
  refine ⟨ε, hε, fun k hk => ?_⟩
  have Hk := H k hk
  obtain ⟨qc', Q', A', W', hqc', hA', hAW', -, hrows⟩ := fixed_rows Hk D hx0
  obtain rfl : qc = qc' := Option.some.inj (hqc.symm.trans hqc')
  have hAA : A' 0 = A 0 := by
    rw [hA] at hA'
    have := congrArg Prod.fst (Except.ok.inj hA')
    funext i j
    have := congrFun (congrFun this i) j
    exact (XR.fin.inj this).symm
  have hWW : W' 0 = W 0 := by
    have h1 := hAW 0 (by omega)
    have h2 := hAW' 0 (by omega)
    rw [hAA] at h2
    have h3 : Matrix.of (W' 0) = Matrix.of (W 0) := by
      rw [← Matrix.inv_eq_right_inv h1, Matrix.inv_eq_right_inv h2]
    exact h3
  set K := max 1 ({ opts with nsimu := k } : SimOpts XR).ntry.toNat with hK
  have hfresh := fresh_moveFrom D (lp := logPost flags specs q r v) hd hAW'
  have hlow : ∀ x, InLimits flags specs (finVec x) → ∀ B, MeasurableSet B →
      ε * posteriorLaw flags specs q r v B ≤
        μ {s | (moveFrom D A' W' (logPost flags specs q r v) K 0 (fun _ => x) s).1 ∈ B} := by
    intro x hx B hB
    have h1 := moveFrom_posterior_lower D (A := A') (W := W') hd (K := K) (by omega) hAW' (M := M) (C := C)
      (fun y => by rw [congrFun hdens]; exact hM y)
      (fun x y hx hy => hC x y ((hlp x).1 hx) ((hlp y).1 hy)) (g := B.indicator 1)
      (measurable_one.indicator hB) ((hlp x).2 hx)
    have e1 : ∫⁻ s, B.indicator (1 : (Fin (nS flags) → ℝ) → ℝ≥0∞)
        (moveFrom D A' W' (logPost flags specs q r v) K 0 (fun _ => x) s).1 ∂μ =
        μ {s | (moveFrom D A' W' (logPost flags specs q r v) K 0 (fun _ => x) s).1 ∈ B} := by
      have hm : MeasurableSet {s | (moveFrom D A' W' (logPost flags specs q r v) K 0 (fun _ => x) s).1 ∈ B} :=
        hfresh.measurable_row 1 x hB
      rw [← lintegral_indicator_one hm]
      rfl
    have e2 : ∫⁻ y, ENNReal.ofReal (pointAt (logPost flags specs q r v) y).density *
        B.indicator (1 : (Fin (nS flags) → ℝ) → ℝ≥0∞) y = posteriorMeasure flags specs q r v B := by
      unfold posteriorMeasure
      rw [withDensity_apply _ hB, ← lintegral_indicator hB]
      refine lintegral_congr fun y => ?_
      rw [congrFun hdens]
      by_cases hy : y ∈ B <;> simp [hy]
    rw [e1, e2, hAA, hWW] at h1
    refine le_trans (le_of_eq ?_) h1
    unfold posteriorLaw
    rw [Measure.smul_apply, smul_eq_mul, ← hZ, ← mul_assoc]
    congr 1
    simp only [ε]
    rw [mul_assoc, ENNReal.mul_inv_cancel hZ0 hZt, mul_one]
  refine ⟨fun p => moveFrom D A' W' (logPost flags specs q r v) K 0 (fun _ => p.1) p.2, ⟨hfresh,
    measurableSet_inLimits specs, fun x hx => ae_of_all _ fun s => ?_, one_pos, hprob, ?_, ?_⟩, ?_, ?_⟩
  · exact (hlp _).1 (moveFrom_mem D K 0 (fun _ => x) s ((hlp x).2 hx))
  · have := hlow x0 hx0 Set.univ MeasurableSet.univ
    simpa using this
  · exact fun x hx B hB => hlow x hx B hB
  · have := moveFrom_invariant D (lp := logPost flags specs q r v) (A := A') (W := W') (K := K) hd hAW'
    simp only [congrFun hdens] at this
    have hsf : SFinite (posteriorMeasure flags specs q r v) := by unfold posteriorMeasure; infer_instance
    exact MeasurePreserving.smul_left (π := posteriorMeasure flags specs q r v) this _
  · intro x hx s fuel
    obtain ⟨out, ho, -⟩ := C76_fixed_variance (fuel := fuel) (Hk.exact x) (Hk.valid x hx) s Hk.noSampling.1
      Hk.noSampling.2
    exact ⟨out, ho, hrows x s fuel out hx ho⟩

theorem finVec_injective {n : ℕ} : Injective (finVec : (Fin n → ℝ) → Vec XR n) := by
  intro a b h
  funext i
  exact XR.fin.inj (congrFun h i)

/-- **C85** the chain forgets its start and converges to the posterior: there is `ε > 0` such that, for runs of
every length from every start within the limits, the law of row `j` differs from the posterior by at
most `(1 - ε)^j`, uniformly over all events. -/
theorem C85_convergence
    (H : ∀ k : ℤ, 1 < k → FixedProblem U G L specs sp { opts with nsimu := k } extra ms data q r v)
    (D : IdealRng G (nS flags) μ) (hlim : FiniteLimits flags specs)
    {M : ℝ} (hM : ∀ θ, posteriorDensity flags specs q r v θ ≤ M) :
    ∃ ε : ℝ, 0 < ε ∧ ε ≤ 1 ∧ ∀ k : ℤ, 1 < k → ∀ x, InLimits flags specs (finVec x) → ∀ fuel, ∀ j : ℕ, (j : ℤ) < k →
      ∀ B : Set (Fin (nS flags) → ℝ), MeasurableSet B →
        |μ.real {s | ∃ out t, runSimulation U G L fuel (newObj (sp x) { opts with nsimu := k } extra ms data) s false
              = .ok out ∧ out.results.chain[j]? = some (finVec t) ∧ t ∈ B} -
          (posteriorMeasure flags specs q r v).real B / (posteriorMeasure flags specs q r v).real Set.univ| ≤
        (1 - ε) ^ j := by
  obtain ⟨hp, hS0, ε, hε, hk⟩ := fixed_doeblin H D hlim hM
  have hε1 : ε ≤ 1 := by
    obtain ⟨T, hT, -⟩ := hk 2 (by norm_num)
    exact hT.εle
  have hεt : ε ≠ ⊤ := ne_top_of_le_ne_top ENNReal.one_ne_top hε1
  refine ⟨ε.toReal, ENNReal.toReal_pos hε.ne' hεt, by
    have := ENNReal.toReal_mono ENNReal.one_ne_top hε1; simpa using this, fun k hk1 x hx fuel j hj B hB => ?_⟩
  obtain ⟨T, hT, hpres, hrun⟩ := hk k hk1
  have h := hT.converges hpres hS0 hB j (x := x) hx
  rw [Nat.div_one] at h
  have e1 : {s | ∃ out t, runSimulation U G L fuel (newObj (sp x) { opts with nsimu := k } extra ms data) s false
      = .ok out ∧ out.results.chain[j]? = some (finVec t) ∧ t ∈ B} = {s | (T^[j] (x, s)).1 ∈ B} := by
    ext s
    obtain ⟨out, ho, hr⟩ := hrun x hx s fuel
    constructor
    · rintro ⟨out', t, ho', ht, htB⟩
      rw [ho] at ho'
      cases ho'
      rw [hr j hj] at ht
      have : (T^[j] (x, s)).1 = t := finVec_injective (Option.some.inj ht)
      rw [Set.mem_setOf_eq, this]
      exact htB
    · intro hs
      exact ⟨out, _, ho, hr j hj, hs⟩
  have e2 : (posteriorLaw flags specs q r v).real B =
      (posteriorMeasure flags specs q r v).real B / (posteriorMeasure flags specs q r v).real Set.univ := by
    unfold posteriorLaw Measure.real
    rw [Measure.smul_apply, smul_eq_mul, ENNReal.toReal_mul, ENNReal.toReal_inv, inv_mul_eq_div]
  rw [e1, ← e2]
  exact h

/-- **C86** averages along the chain approach the posterior mean: there is `ε > 0` such that, for runs of every
length `k` from every start within the limits and every function `f` bounded by `c` within the limits,
the average of `f` over the rows differs from the posterior mean of `f` by `η` or more with
probability at most `8 c² / (ε k η²)`. -/
theorem C86_averages
    (H : ∀ k : ℤ, 1 < k → FixedProblem U G L specs sp { opts with nsimu := k } extra ms data q r v)
    (D : IdealRng G (nS flags) μ) (hlim : FiniteLimits flags specs)
    {M : ℝ} (hM : ∀ θ, posteriorDensity flags specs q r v θ ≤ M) :
    ∃ ε : ℝ, 0 < ε ∧ ∀ k : ℕ, 1 < k → ∀ x, InLimits flags specs (finVec x) → ∀ fuel,
      ∀ (f : (Fin (nS flags) → ℝ) → ℝ) (c η : ℝ), Measurable f → 0 < c → 0 < η →
        (∀ θ, InLimits flags specs (finVec θ) → |f θ| ≤ c) →
        1 - 8 * c ^ 2 / (ε * k * η ^ 2) ≤
          μ.real {s | ∃ out, ∃ t : ℕ → Fin (nS flags) → ℝ,
              runSimulation U G L fuel (newObj (sp x) { opts with nsimu := k } extra ms data) s false
                = .ok out ∧ (∀ j : ℕ, j < k → out.results.chain[j]? = some (finVec (t j))) ∧
              |(∑ j ∈ Finset.range k, f (t j)) / k - (∫ θ, f θ ∂posteriorMeasure flags specs q r v) /
                (posteriorMeasure flags specs q r v).real Set.univ| < η} := by
  obtain ⟨hp, hS0, ε, hε, hk⟩ := fixed_doeblin H D hlim hM
  have hε1 : ε ≤ 1 := by
    obtain ⟨T, hT, -⟩ := hk 2 (by norm_num)
    exact hT.εle
  have hεt : ε ≠ ⊤ := ne_top_of_le_ne_top ENNReal.one_ne_top hε1
  refine ⟨ε.toReal, ENNReal.toReal_pos hε.ne' hεt, fun k hk1 x hx fuel f c η hf hc hη hfc => ?_⟩
  obtain ⟨T, hT, hpres, hrun⟩ := hk k (by exact_mod_cast hk1)
  have h := hT.average hε hpres hS0 hf hc hfc (k := k) (by omega) hη (x := x) hx
  have e2 : ∫ θ, f θ ∂posteriorLaw flags specs q r v = (∫ θ, f θ ∂posteriorMeasure flags specs q r v) /
      (posteriorMeasure flags specs q r v).real Set.univ := by
    unfold posteriorLaw Measure.real
    rw [integral_smul_measure, ENNReal.toReal_inv, smul_eq_mul, inv_mul_eq_div]
  rw [e2, Nat.cast_one, mul_one] at h
  set p := (∫ θ, f θ ∂posteriorMeasure flags specs q r v) / (posteriorMeasure flags specs q r v).real Set.univ
  have hm : Measurable fun s => |(∑ j ∈ Finset.range k, f (T^[j] (x, s)).1) / k - p| := by
    have h1 : Measurable fun s => ∑ j ∈ Finset.range k, f (T^[j] (x, s)).1 :=
      Finset.measurable_sum _ fun j _ => hf.comp (hT.fresh.measurable_row j x)
    exact ((h1.div_const _).sub_const _).abs
  have hms : MeasurableSet {s | η ≤ |(∑ j ∈ Finset.range k, f (T^[j] (x, s)).1) / k - p|} :=
    measurableSet_le measurable_const hm
  have hc' := probReal_compl_eq_one_sub (μ := μ) hms
  calc 1 - 8 * c ^ 2 / (ε.toReal * k * η ^ 2)
      ≤ 1 - μ.real {s | η ≤ |(∑ j ∈ Finset.range k, f (T^[j] (x, s)).1) / k - p|} := by linarith
    _ = μ.real {s | η ≤ |(∑ j ∈ Finset.range k, f (T^[j] (x, s)).1) / k - p|}ᶜ := hc'.symm
    _ ≤ _ := by
      refine measureReal_mono (fun s hs => ?_)
      obtain ⟨out, ho, hr⟩ := hrun x hx s fuel
      refine ⟨out, fun j => (T^[j] (x, s)).1, ho, fun j hj => hr j (by exact_mod_cast hj), ?_⟩
      simpa using hs

end run

/-! ### Examples -/

theorem XRun.finiteLimits : FiniteLimits XRun.flags (XRun.specs true) := by
  intro k _
  exact ⟨-10, 10, by norm_num, rfl, rfl⟩

theorem XRun.density_le (θ : Fin (nS XRun.flags) → ℝ) :
    posteriorDensity (m := 1) XRun.flags (XRun.specs true)
      (fun θ _ => θ ⟨0, by decide⟩ * θ ⟨0, by decide⟩) (fun _ => 0) (fun _ => 1) θ ≤ 1 := by
  unfold posteriorDensity
  refine Set.indicator_apply_le' (fun _ => ?_) fun _ => zero_le_one
  rw [Real.exp_le_one_iff]
  have := mul_self_nonneg (θ ⟨0, by decide⟩)
  simp
  linarith

/-- C85 for the posterior `exp(-θ²/2)` on `[-10, 10]`: from start 3, row `j` of a run of 1000 rows is nonnegative
with probability within `(1 - ε)^j` of the posterior probability. -/
example : ∃ ε : ℝ, 0 < ε ∧ ε ≤ 1 ∧ ∀ j : ℕ, (j : ℤ) < 1000 →
    |(coinLaw (nS XRun.flags)).real {s | ∃ out t, runSimulation XRun.user (coinRng (nS XRun.flags)) exactLapack 0
          (newObj (m := 1) (XRun.specsAt fun _ => 3) (defineSimulationOptions { nsimu := 1000, method := .dr })
            (XRun.extra 1 1) XRun.settings XRun.data) s false = .ok out ∧
          out.results.chain[j]? = some (finVec t) ∧ t ∈ {t | 0 ≤ t ⟨0, by decide⟩}} -
      (posteriorMeasure (m := 1) XRun.flags (XRun.specs true)
        (fun θ _ => θ ⟨0, by decide⟩ * θ ⟨0, by decide⟩) (fun _ => 0) (fun _ => 1)).real
          {t | 0 ≤ t ⟨0, by decide⟩} /
      (posteriorMeasure (m := 1) XRun.flags (XRun.specs true)
        (fun θ _ => θ ⟨0, by decide⟩ * θ ⟨0, by decide⟩) (fun _ => 0) (fun _ => 1)).real Set.univ| ≤ (1 - ε) ^ j := by
  obtain ⟨ε, h0, h1, h⟩ := C85_convergence
    (opts := defineSimulationOptions { nsimu := 2, method := .dr }) XRun.fixedProblem (coinIdeal _)
    XRun.finiteLimits (M := 1) XRun.density_le
  refine ⟨ε, h0, h1, fun j hj => h 1000 (by decide) _ ?_ 0 j hj _ ?_⟩
  · intro i k _
    simp [XRun.specs, finVec]
    norm_num
  · exact measurableSet_le measurable_const (measurable_pi_apply _)

/-- C86 for that posterior: the average of `θ` over the rows of runs started at 3. -/
example : ∃ ε : ℝ, 0 < ε ∧ ∀ k : ℕ, 1 < k →
    1 - 8 * 10 ^ 2 / (ε * k * (1 / 10) ^ 2) ≤
      (coinLaw (nS XRun.flags)).real {s | ∃ out, ∃ t : ℕ → Fin (nS XRun.flags) → ℝ,
        runSimulation XRun.user (coinRng (nS XRun.flags)) exactLapack 0
          (newObj (m := 1) (XRun.specsAt fun _ => 3) (defineSimulationOptions { nsimu := k, method := .dr })
            (XRun.extra 1 1) XRun.settings XRun.data) s false = .ok out ∧
        (∀ j : ℕ, j < k → out.results.chain[j]? = some (finVec (t j))) ∧
        |(∑ j ∈ Finset.range k, t j ⟨0, by decide⟩) / k -
          (∫ θ, θ ⟨0, by decide⟩ ∂(posteriorMeasure (m := 1) XRun.flags (XRun.specs true)
            (fun θ _ => θ ⟨0, by decide⟩ * θ ⟨0, by decide⟩) (fun _ => 0) (fun _ => 1))) /
          (posteriorMeasure (m := 1) XRun.flags (XRun.specs true)
            (fun θ _ => θ ⟨0, by decide⟩ * θ ⟨0, by decide⟩) (fun _ => 0) (fun _ => 1)).real Set.univ| < 1 / 10} := by
  obtain ⟨ε, h0, h⟩ := C86_averages
    (opts := defineSimulationOptions { nsimu := 2, method := .dr }) XRun.fixedProblem (coinIdeal _)
    XRun.finiteLimits (M := 1) XRun.density_le
  refine ⟨ε, h0, fun k hk => h k hk _ ?_ 0 (fun θ => θ ⟨0, by decide⟩) 10 (1 / 10) (measurable_pi_apply _)
    (by norm_num) (by norm_num) ?_⟩
  · intro i k _
    simp [XRun.specs, finVec]
    norm_num
  · intro θ hθ
    have := hθ ⟨0, by decide⟩ 0 (by decide)
    simp [XRun.specs, finVec] at this
    exact abs_le.2 this

end Verif
