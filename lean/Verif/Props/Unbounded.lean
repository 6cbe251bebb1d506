import Verif.Props.Convergence
import Verif.Lemmas.MoveHarris
import Verif.Lemmas.Means
import Mathlib.Analysis.SpecialFunctions.Gaussian.GaussianIntegral
import Mathlib.MeasureTheory.Integral.Pi

/-! # Long chains represent every proper posterior

C112 and C113 drop the bounds of C85 and C86: the limits may be infinite and the posterior density unbounded, only
its integral has to be finite.  There is no common rate any more; from every start the law of the rows
approaches the posterior (C112), and the averages approach the posterior means (C113). -/

set_option linter.unusedSectionVars false

namespace Verif
open MeasureTheory Function
open scoped ENNReal Matrix

section run
variable {σ : Type} [MeasurableSpace σ] {μ : Measure σ} {G : Rng σ XR} {N m : ℕ} {flags : Fin N → Bool}
  [IsProbabilityMeasure μ] {U : UserFuns XR N (nS flags) m} {L : Lapack XR}
  {specs : Fin N → ParamSpec XR} {sp : (Fin (nS flags) → ℝ) → Fin N → ParamSpec XR} {opts : SimOpts XR}
  {extra : ExtraOpts XR (nS flags)} {ms : ModelSettings XR} {data : Data}
  {q : (Fin (nS flags) → ℝ) → Fin m → ℝ} {r : (Fin (nS flags) → ℝ) → ℝ} {v : Fin m → ℝ}

theorem posterior_outside (flags : Fin N → Bool) (specs : Fin N → ParamSpec XR)
    (q : (Fin (nS flags) → ℝ) → Fin m → ℝ) (r : (Fin (nS flags) → ℝ) → ℝ) (v : Fin m → ℝ) :
    posteriorMeasure flags specs q r v {θ | InLimits flags specs (finVec θ)}ᶜ = 0 := by
  have hS := measurableSet_inLimits (flags := flags) specs
  unfold posteriorMeasure
  rw [withDensity_apply _ hS.compl, ← lintegral_indicator hS.compl]
  refine (lintegral_congr fun θ => ?_).trans lintegral_zero
  by_cases hθ : θ ∈ {θ | InLimits flags specs (finVec θ)}
  · rw [Set.indicator_of_notMem (by simpa using hθ)]
  · rw [Set.indicator_of_mem hθ]
    unfold posteriorDensity
    rw [Set.indicator_of_notMem hθ, ENNReal.ofReal_zero]

/-- The chains of all lengths come from one transition, which is Harris recurrent. -/
theorem fixed_harris
    (H : ∀ k : ℤ, 1 < k → FixedProblem U G L specs sp { opts with nsimu := k } extra ms data q r v)
    (D : IdealRng G (nS flags) μ) (hZ0 : posteriorMeasure flags specs q r v Set.univ ≠ 0)
    (hZt : posteriorMeasure flags specs q r v Set.univ ≠ ⊤) :
    posteriorLaw flags specs q r v {θ | InLimits flags specs (finVec θ)}ᶜ = 0 ∧
    ∃ T : (Fin (nS flags) → ℝ) × σ → (Fin (nS flags) → ℝ) × σ,
      Harris μ T (posteriorLaw flags specs q r v) ∧
      (∀ x, InLimits flags specs (finVec x) → Spreads μ T (posteriorLaw flags specs q r v) x) ∧
      (∀ x, InLimits flags specs (finVec x) → ∀ s, InLimits flags specs (finVec (T (x, s)).1)) ∧
      ∀ k : ℤ, 1 < k → ∀ x, InLimits flags specs (finVec x) → ∀ s fuel, ∃ out,
        runSimulation U G L fuel (newObj (sp x) { opts with nsimu := k } extra ms data) s false = .ok out ∧
        ∀ j : ℕ, (j : ℤ) < k → out.results.chain[j]? = some (finVec (T^[j] (x, s)).1) := by
  have H2 := H 2 (by norm_num)
  set Z := posteriorMeasure flags specs q r v Set.univ with hZ
  have hprob : IsProbabilityMeasure (posteriorLaw flags specs q r v) := ⟨by
    unfold posteriorLaw
    rw [Measure.smul_apply, smul_eq_mul, ← hZ, ENNReal.inv_mul_cancel hZ0 hZt]⟩
  have hS0 : posteriorLaw flags specs q r v {θ | InLimits flags specs (finVec θ)}ᶜ = 0 := by
    unfold posteriorLaw
    rw [Measure.smul_apply, posterior_outside, smul_zero]
  refine ⟨hS0, ?_⟩
  obtain ⟨x0, hx0⟩ : ∃ x0 : Fin (nS flags) → ℝ, InLimits flags specs (finVec x0) := by
    by_contra hn
    have h1 : {θ : Fin (nS flags) → ℝ | InLimits flags specs (finVec θ)}ᶜ = Set.univ :=
      Set.eq_univ_of_forall fun θ hθ => hn ⟨θ, hθ⟩
    exact hZ0 (by rw [hZ, ← h1]; exact posterior_outside flags specs q r v)
  have hdens : (fun θ => (pointAt (logPost flags specs q r v) θ).density) = posteriorDensity flags specs q r v :=
    funext (logPost_density v)
  have hd : Measurable fun θ => (pointAt (logPost flags specs q r v) θ).density := by
    rw [hdens]; exact measurable_posteriorDensity H2.measurable.1 H2.measurable.2
  have hlp : ∀ θ, logPost flags specs q r v θ ≠ none ↔ InLimits flags specs (finVec θ) := by
    intro θ
    unfold logPost
    by_cases h : InLimits flags specs (finVec θ)
    · simp [h]
    · simp [h]
  obtain ⟨qc, Q, A, W, hqc, hA, hAW, ⟨ds, hds, hst⟩, -⟩ := fixed_rows H2 D hx0
  obtain ⟨h1, h2⟩ := moveFrom_harris D (lp := logPost flags specs q r v) (A := A) (W := W) hd
    (K := max 1 opts.ntry.toNat) (by omega) hAW hprob hZ0 hZt
    (by simp only [congrFun hdens]; rfl)
  refine ⟨_, h1, fun x hx => h2 x ((hlp x).2 hx), fun x hx s => ?_, fun k hk x hx s fuel => ?_⟩
  · exact (hlp _).1 (moveFrom_mem D _ 0 (fun _ => x) s ((hlp x).2 hx))
  · have Hk := H k hk
    obtain ⟨qc', Q', A', W', hqc', hA', hAW', ⟨ds', hds', hst'⟩, hrows⟩ := fixed_rows Hk D hx0
    obtain rfl : qc = qc' := Option.some.inj (hqc.symm.trans hqc')
    have hAA : A' 0 = A 0 := by
      rw [hA] at hA'
      have := congrArg Prod.fst (Except.ok.inj hA')
      funext i j
      have := congrFun (congrFun this i) j
      exact (XR.fin.inj this).symm
    obtain rfl : ds = ds' := List.map_injective_iff.2 (fun a b h => XR.fin.inj h) (hds.symm.trans hds')
    have hAk : A' = A := funext fun k => by rw [(hst' k).1, (hst k).1, hAA]
    have hWk : W' = W := funext fun k => by rw [(hst' k).2, (hst k).2, hAk]
    obtain ⟨out, ho, -⟩ := C76_fixed_variance (fuel := fuel) (Hk.exact x) (Hk.valid x hx) s Hk.noSampling.1
      Hk.noSampling.2
    refine ⟨out, ho, ?_⟩
    rw [hAk, hWk] at hrows
    exact hrows x s fuel out hx ho

/-- **C112** the chain forgets its start and converges to the posterior, whatever the limits and the density,
if only the posterior has a finite integral: from every start within the limits the law of row `j`,
in runs of all lengths, is as close to the posterior as wished from some `j` on, uniformly over all
events. -/
theorem C112_convergence
    (H : ∀ k : ℤ, 1 < k → FixedProblem U G L specs sp { opts with nsimu := k } extra ms data q r v)
    (D : IdealRng G (nS flags) μ) (hZ0 : posteriorMeasure flags specs q r v Set.univ ≠ 0)
    (hZt : posteriorMeasure flags specs q r v Set.univ ≠ ⊤) {x : Fin (nS flags) → ℝ}
    (hx : InLimits flags specs (finVec x)) {ε : ℝ} (hε : 0 < ε) :
    ∃ J : ℕ, ∀ j, J ≤ j → ∀ k : ℤ, 1 < k → (j : ℤ) < k → ∀ fuel, ∀ B : Set (Fin (nS flags) → ℝ), MeasurableSet B →
      |μ.real {s | ∃ out t, runSimulation U G L fuel (newObj (sp x) { opts with nsimu := k } extra ms data) s false
            = .ok out ∧ out.results.chain[j]? = some (finVec t) ∧ t ∈ B} -
        (posteriorMeasure flags specs q r v).real B / (posteriorMeasure flags specs q r v).real Set.univ| ≤ ε := by
  obtain ⟨hS0, T, hT, hsp, -, hrun⟩ := fixed_harris H D hZ0 hZt
  obtain ⟨J, hJ⟩ := hT.near (hsp x hx) hε
  refine ⟨J, fun j hj k hk hjk fuel B hB => ?_⟩
  have h := hJ j hj (B.indicator 1) ⟨measurable_one.indicator hB,
    fun y => Set.indicator_nonneg (fun _ _ => zero_le_one) y,
    fun y => Set.indicator_le_self' (fun _ _ => zero_le_one) y⟩
  have hms : MeasurableSet {s | (T^[j] (x, s)).1 ∈ B} := hT.fresh.measurable_row j x hB
  have e0 : meanAt μ T j (B.indicator 1) x = μ.real {s | (T^[j] (x, s)).1 ∈ B} := by
    rw [← integral_indicator_one hms]; rfl
  rw [e0, integral_indicator_one hB] at h
  have e1 : {s | ∃ out t, runSimulation U G L fuel (newObj (sp x) { opts with nsimu := k } extra ms data) s false
      = .ok out ∧ out.results.chain[j]? = some (finVec t) ∧ t ∈ B} = {s | (T^[j] (x, s)).1 ∈ B} := by
    ext s
    obtain ⟨out, ho, hr⟩ := hrun k hk x hx s fuel
    constructor
    · rintro ⟨out', t, ho', ht, htB⟩
      rw [ho] at ho'
      cases ho'
      rw [hr j hjk] at ht
      have : (T^[j] (x, s)).1 = t := finVec_injective (Option.some.inj ht)
      rw [Set.mem_ofPred_eq, this]
      exact htB
    · intro hs
      exact ⟨out, _, ho, hr j hjk, hs⟩
  have e2 : (posteriorLaw flags specs q r v).real B =
      (posteriorMeasure flags specs q r v).real B / (posteriorMeasure flags specs q r v).real Set.univ := by
    unfold posteriorLaw Measure.real
    rw [Measure.smul_apply, smul_eq_mul, ENNReal.toReal_mul, ENNReal.toReal_inv, inv_mul_eq_div]
  rw [e1, ← e2]
  exact h

/-- **C113** averages along the chain approach the posterior means, whatever the limits and the density: from every
start and for all long enough runs, the average over the rows of any function bounded by `c` within the limits
is within `η` of its posterior mean with probability at least `1 - ε`. -/
theorem C113_averages
    (H : ∀ k : ℤ, 1 < k → FixedProblem U G L specs sp { opts with nsimu := k } extra ms data q r v)
    (D : IdealRng G (nS flags) μ) (hZ0 : posteriorMeasure flags specs q r v Set.univ ≠ 0)
    (hZt : posteriorMeasure flags specs q r v Set.univ ≠ ⊤) {x : Fin (nS flags) → ℝ}
    (hx : InLimits flags specs (finVec x)) {c η ε : ℝ} (hc : 0 < c) (hη : 0 < η) (hε : 0 < ε) :
    ∃ K : ℕ, ∀ k : ℕ, K ≤ k → ∀ fuel, ∀ f : (Fin (nS flags) → ℝ) → ℝ, Measurable f →
        (∀ θ, InLimits flags specs (finVec θ) → |f θ| ≤ c) →
        1 - ε ≤ μ.real {s | ∃ out, ∃ t : ℕ → Fin (nS flags) → ℝ,
              runSimulation U G L fuel (newObj (sp x) { opts with nsimu := k } extra ms data) s false
                = .ok out ∧ (∀ j : ℕ, j < k → out.results.chain[j]? = some (finVec (t j))) ∧
              |(∑ j ∈ Finset.range k, f (t j)) / k - (∫ θ, f θ ∂posteriorMeasure flags specs q r v) /
                (posteriorMeasure flags specs q r v).real Set.univ| < η} := by
  obtain ⟨hS0, T, hT, hsp, hkeep, hrun⟩ := fixed_harris H D hZ0 hZt
  obtain ⟨K, hK⟩ := hT.average (hsp x hx) (measurableSet_inLimits specs)
    (fun y hy => ae_of_all _ fun s => hkeep y hy s) hS0 hx hc hη hε
  refine ⟨K + 2, fun k hk fuel f hf hfc => ?_⟩
  have h := hK k (by omega) f hf hfc
  have e2 : ∫ θ, f θ ∂posteriorLaw flags specs q r v = (∫ θ, f θ ∂posteriorMeasure flags specs q r v) /
      (posteriorMeasure flags specs q r v).real Set.univ := by
    unfold posteriorLaw Measure.real
    rw [integral_smul_measure, ENNReal.toReal_inv, smul_eq_mul, inv_mul_eq_div]
  rw [e2] at h
  set p := (∫ θ, f θ ∂posteriorMeasure flags specs q r v) / (posteriorMeasure flags specs q r v).real Set.univ
  have hm : Measurable fun s => |(∑ j ∈ Finset.range k, f (T^[j] (x, s)).1) / k - p| := by
    have h1 : Measurable fun s => ∑ j ∈ Finset.range k, f (T^[j] (x, s)).1 :=
      Finset.measurable_sum _ fun j _ => hf.comp (hT.fresh.measurable_row j x)
    exact ((h1.div_const _).sub_const _).abs
  have hms : MeasurableSet {s | η ≤ |(∑ j ∈ Finset.range k, f (T^[j] (x, s)).1) / k - p|} :=
    measurableSet_le measurable_const hm
  have hc' := probReal_compl_eq_one_sub (μ := μ) hms
  calc 1 - ε
      ≤ 1 - μ.real {s | η ≤ |(∑ j ∈ Finset.range k, f (T^[j] (x, s)).1) / k - p|} := by linarith
    _ = μ.real {s | η ≤ |(∑ j ∈ Finset.range k, f (T^[j] (x, s)).1) / k - p|}ᶜ := hc'.symm
    _ ≤ _ := by
      refine measureReal_mono (fun s hs => ?_)
      obtain ⟨out, ho, hr⟩ := hrun k (by omega) x hx s fuel
      refine ⟨out, fun j => (T^[j] (x, s)).1, ho, fun j hj => hr j (by exact_mod_cast hj), ?_⟩
      simpa using hs

/-- **C113**, functions with a finite posterior mean, such as the parameter values themselves: from every start
and for all long enough runs, the average over the rows is within `η` of the posterior mean with probability at
least `1 - ε`. -/
theorem C113_means
    (H : ∀ k : ℤ, 1 < k → FixedProblem U G L specs sp { opts with nsimu := k } extra ms data q r v)
    (D : IdealRng G (nS flags) μ) (hZ0 : posteriorMeasure flags specs q r v Set.univ ≠ 0)
    (hZt : posteriorMeasure flags specs q r v Set.univ ≠ ⊤) {x : Fin (nS flags) → ℝ}
    (hx : InLimits flags specs (finVec x)) {η ε : ℝ} (hη : 0 < η) (hε : 0 < ε)
    {f : (Fin (nS flags) → ℝ) → ℝ} (hf : Measurable f) (hfi : Integrable f (posteriorMeasure flags specs q r v)) :
    ∃ K : ℕ, ∀ k : ℕ, K ≤ k → ∀ fuel,
        1 - ε ≤ μ.real {s | ∃ out, ∃ t : ℕ → Fin (nS flags) → ℝ,
              runSimulation U G L fuel (newObj (sp x) { opts with nsimu := k } extra ms data) s false
                = .ok out ∧ (∀ j : ℕ, j < k → out.results.chain[j]? = some (finVec (t j))) ∧
              |(∑ j ∈ Finset.range k, f (t j)) / k - (∫ θ, f θ ∂posteriorMeasure flags specs q r v) /
                (posteriorMeasure flags specs q r v).real Set.univ| < η} := by
  obtain ⟨hS0, T, hT, hsp, hkeep, hrun⟩ := fixed_harris H D hZ0 hZt
  have hfi' : Integrable f (posteriorLaw flags specs q r v) := hfi.smul_measure (ENNReal.inv_ne_top.2 hZ0)
  obtain ⟨K, hK⟩ := hT.average_integrable (measurableSet_inLimits specs) hsp
    (fun y hy => ae_of_all _ fun s => hkeep y hy s) hS0 hx hη hε hf hfi'
  refine ⟨K + 2, fun k hk fuel => ?_⟩
  have h := hK k (by omega)
  have e2 : ∫ θ, f θ ∂posteriorLaw flags specs q r v = (∫ θ, f θ ∂posteriorMeasure flags specs q r v) /
      (posteriorMeasure flags specs q r v).real Set.univ := by
    unfold posteriorLaw Measure.real
    rw [integral_smul_measure, ENNReal.toReal_inv, smul_eq_mul, inv_mul_eq_div]
  rw [e2] at h
  set p := (∫ θ, f θ ∂posteriorMeasure flags specs q r v) / (posteriorMeasure flags specs q r v).real Set.univ
  have hm : Measurable fun s => |(∑ j ∈ Finset.range k, f (T^[j] (x, s)).1) / k - p| := by
    have h1 : Measurable fun s => ∑ j ∈ Finset.range k, f (T^[j] (x, s)).1 :=
      Finset.measurable_sum _ fun j _ => hf.comp (hT.fresh.measurable_row j x)
    exact ((h1.div_const _).sub_const _).abs
  have hms : MeasurableSet {s | η ≤ |(∑ j ∈ Finset.range k, f (T^[j] (x, s)).1) / k - p|} :=
    measurableSet_le measurable_const hm
  have hc' := probReal_compl_eq_one_sub (μ := μ) hms
  calc 1 - ε
      ≤ 1 - μ.real {s | η ≤ |(∑ j ∈ Finset.range k, f (T^[j] (x, s)).1) / k - p|} := by linarith
    _ = μ.real {s | η ≤ |(∑ j ∈ Finset.range k, f (T^[j] (x, s)).1) / k - p|}ᶜ := hc'.symm
    _ ≤ _ := by
      refine measureReal_mono (fun s hs => ?_)
      obtain ⟨out, ho, hr⟩ := hrun k (by omega) x hx s fuel
      refine ⟨out, fun j => (T^[j] (x, s)).1, ho, fun j hj => hr j (by exact_mod_cast hj), ?_⟩
      simpa using hs

end run

/-! ### Examples -/

/-- `XRun.specs true` without limits -/
noncomputable def XRun.freeSpecs : Fin 1 → ParamSpec XR := fun k =>
  { XRun.specs true k with minimum := .ninf, maximum := .pinf }

/-- started at `x` -/
noncomputable def XRun.freeAt (x : Fin (nS XRun.flags) → ℝ) : Fin 1 → ParamSpec XR := fun k =>
  { XRun.freeSpecs k with theta0 := .fin (x ⟨0, by decide⟩) }

theorem XRun.free_inLimits (x : Fin (nS XRun.flags) → ℝ) : InLimits XRun.flags XRun.freeSpecs (finVec x) := by
  intro i k _
  exact ⟨rfl, rfl⟩

/-- The posterior `exp(-θ²/2)` on the whole line, sampled with two stages of delayed rejection. -/
theorem XRun.freeProblem (k : ℤ) (hk : 1 < k) :
    FixedProblem (m := 1) XRun.user (coinRng (nS XRun.flags)) exactLapack
    XRun.freeSpecs XRun.freeAt (defineSimulationOptions { nsimu := k, method := .dr })
    (XRun.extra 1 1) XRun.settings XRun.data (fun θ _ => θ ⟨0, by decide⟩ * θ ⟨0, by decide⟩) (fun _ => 0)
    (fun _ => 1) where
  starts x := by
    refine ⟨fun i k _ => ?_, fun k hk => by cases hk⟩
    have : i = ⟨0, by decide⟩ := by
      have := i.2
      have h1 := XRun.nS_flags
      exact Fin.ext (by simp; omega)
    rw [this]; rfl
  exact x := {
    lapack := exactLapack_ok
    draws := fun _ => ⟨_, rfl⟩
    adjust := ⟨1, rfl⟩
    burnin := ⟨10, rfl, by norm_num⟩
    drscale := ⟨[5], rfl, by simp⟩
    noRam := rfl
    weight := .inl rfl
    scale := ⟨_, .inl ⟨rfl, rfl⟩⟩
    RDR := nofun }
  valid x hx := {
    nsimu := hk
    sampled := by decide
    initial := fun _ => ⟨_, rfl⟩
    limits := fun k _ => ⟨rfl, rfl⟩
    localFit := .inl rfl
    sos := fun v => by simp [XRun.user]
    data := show XRun.data.n ≠ [] by decide
    settings := ⟨fun v hv => by cases hv; exact .inl rfl, nofun, nofun, .inr (.inl rfl),
      .inl (show XRun.data.n.length ≤ 1 by decide)⟩
    settingsFresh := rfl
    observations := rfl
    covariance := .inl ⟨fun _ => 1, rfl, fun _ => one_pos⟩
    drscale := by change [XR.fin 5] ≠ []; simp
    factors := nofun
    delayed := fun _ => ⟨.inl rfl, rfl, fun h => absurd h (show ¬ (0 : ℤ) < 0 by decide)⟩
    noRestart := rfl }
  names := by decide
  noAdaptation := show (0 : ℤ) ≤ 0 by decide
  noSampling := ⟨rfl, rfl⟩
  covariance := rfl
  noFactors := rfl
  sosDim := one_pos
  sos θ ss hs := by
    obtain ⟨v, hv, hs⟩ := hs
    unfold SosValue XRun.user at hs
    simp only [if_true, reduceCtorEq, false_and, or_false] at hs
    have h0 := congrArg (fun l => l[0]?) hv.1
    rw [← Except.ok.inj hs]
    funext k
    have h1 : v 0 = finVec θ ⟨0, by decide⟩ := by
      have e1 : (((List.finRange 1).filter XRun.flags).map v)[0]? = some (v 0) := rfl
      have e2 : (List.ofFn (finVec θ))[0]? = some (finVec θ ⟨0, by decide⟩) := by
        rw [List.getElem?_ofFn, dif_pos (by decide)]
      exact Option.some.inj (e1.symm.trans (h0.trans e2))
    rw [h1, finVec, XR.fin_mul]
    rfl
  prior _ _ _ _ _ _ := rfl
  variances := ⟨.inr (.inl ⟨1, rfl, fun _ => rfl⟩), fun _ => one_pos⟩
  measurable := ⟨by fun_prop, measurable_const⟩

theorem XRun.free_density (θ : Fin (nS XRun.flags) → ℝ) : posteriorDensity (m := 1) XRun.flags XRun.freeSpecs
    (fun θ _ => θ ⟨0, by decide⟩ * θ ⟨0, by decide⟩) (fun _ => 0) (fun _ => 1) θ =
    ∏ i, Real.exp (-(1 / 2) * θ i ^ 2) := by
  unfold posteriorDensity
  rw [Set.indicator_of_mem (by exact XRun.free_inLimits θ)]
  have hu : (Finset.univ : Finset (Fin (nS XRun.flags))) = {⟨0, by decide⟩} := by decide
  rw [hu, Finset.prod_singleton]
  congr 1
  simp
  ring

/-- That posterior has a finite integral. -/
theorem XRun.free_mass :
    posteriorMeasure (m := 1) XRun.flags XRun.freeSpecs
      (fun θ _ => θ ⟨0, by decide⟩ * θ ⟨0, by decide⟩) (fun _ => 0) (fun _ => 1) Set.univ ≠ 0 ∧
    posteriorMeasure (m := 1) XRun.flags XRun.freeSpecs
      (fun θ _ => θ ⟨0, by decide⟩ * θ ⟨0, by decide⟩) (fun _ => 0) (fun _ => 1) Set.univ ≠ ⊤ := by
  have hi : Integrable (fun θ : Fin (nS XRun.flags) → ℝ => ∏ i, Real.exp (-(1 / 2) * θ i ^ 2)) :=
    Integrable.fintype_prod (f := fun _ x => Real.exp (-(1 / 2) * x ^ 2))
      fun _ => integrable_exp_neg_mul_sq (by norm_num)
  unfold posteriorMeasure
  rw [withDensity_apply _ MeasurableSet.univ, Measure.restrict_univ]
  simp only [XRun.free_density]
  constructor
  · intro h0
    have hm : Measurable fun θ : Fin (nS XRun.flags) → ℝ => ENNReal.ofReal (∏ i, Real.exp (-(1 / 2) * θ i ^ 2)) := by
      fun_prop
    rw [lintegral_eq_zero_iff hm] at h0
    obtain ⟨θ, hθ⟩ := h0.exists
    exact absurd (ENNReal.ofReal_eq_zero.1 hθ) (not_le.2 (Finset.prod_pos fun i _ => Real.exp_pos _))
  · exact hi.lintegral_lt_top.ne

/-- C112 for that posterior: from start 1000000 the probability that row `j` is nonnegative is within `1/100` of the
posterior probability from some `j` on. -/
example : ∃ J : ℕ, ∀ j, J ≤ j → ∀ k : ℤ, 1 < k → (j : ℤ) < k →
    |(coinLaw (nS XRun.flags)).real {s | ∃ out t, runSimulation XRun.user (coinRng (nS XRun.flags)) exactLapack 0
          (newObj (m := 1) (XRun.freeAt fun _ => 1000000) (defineSimulationOptions { nsimu := k, method := .dr })
            (XRun.extra 1 1) XRun.settings XRun.data) s false = .ok out ∧
          out.results.chain[j]? = some (finVec t) ∧ t ∈ {t | 0 ≤ t ⟨0, by decide⟩}} -
      (posteriorMeasure (m := 1) XRun.flags XRun.freeSpecs
        (fun θ _ => θ ⟨0, by decide⟩ * θ ⟨0, by decide⟩) (fun _ => 0) (fun _ => 1)).real
          {t | 0 ≤ t ⟨0, by decide⟩} /
      (posteriorMeasure (m := 1) XRun.flags XRun.freeSpecs
        (fun θ _ => θ ⟨0, by decide⟩ * θ ⟨0, by decide⟩) (fun _ => 0) (fun _ => 1)).real Set.univ| ≤ 1 / 100 := by
  obtain ⟨J, h⟩ := C112_convergence
    (opts := defineSimulationOptions { nsimu := 2, method := .dr }) XRun.freeProblem (coinIdeal _)
    XRun.free_mass.1 XRun.free_mass.2 (XRun.free_inLimits fun _ => 1000000) (ε := 1 / 100) (by norm_num)
  exact ⟨J, fun j hj k hk hjk => h j hj k hk hjk 0 _ (measurableSet_le measurable_const (measurable_pi_apply _))⟩

/-- C113 for that posterior: the average of `sin θ` over the rows of runs started at 1000000. -/
example : ∃ K : ℕ, ∀ k : ℕ, K ≤ k →
    1 - 1 / 100 ≤
      (coinLaw (nS XRun.flags)).real {s | ∃ out, ∃ t : ℕ → Fin (nS XRun.flags) → ℝ,
        runSimulation XRun.user (coinRng (nS XRun.flags)) exactLapack 0
          (newObj (m := 1) (XRun.freeAt fun _ => 1000000) (defineSimulationOptions { nsimu := k, method := .dr })
            (XRun.extra 1 1) XRun.settings XRun.data) s false = .ok out ∧
        (∀ j : ℕ, j < k → out.results.chain[j]? = some (finVec (t j))) ∧
        |(∑ j ∈ Finset.range k, Real.sin (t j ⟨0, by decide⟩)) / k -
          (∫ θ, Real.sin (θ ⟨0, by decide⟩) ∂(posteriorMeasure (m := 1) XRun.flags XRun.freeSpecs
            (fun θ _ => θ ⟨0, by decide⟩ * θ ⟨0, by decide⟩) (fun _ => 0) (fun _ => 1))) /
          (posteriorMeasure (m := 1) XRun.flags XRun.freeSpecs
            (fun θ _ => θ ⟨0, by decide⟩ * θ ⟨0, by decide⟩) (fun _ => 0) (fun _ => 1)).real Set.univ| < 1 / 10} := by
  obtain ⟨K, h⟩ := C113_averages
    (opts := defineSimulationOptions { nsimu := 2, method := .dr }) XRun.freeProblem (coinIdeal _)
    XRun.free_mass.1 XRun.free_mass.2 (XRun.free_inLimits fun _ => 1000000) (c := 1) (η := 1 / 10) (ε := 1 / 100)
    one_pos (by norm_num) (by norm_num)
  exact ⟨K, fun k hk => h k hk 0 (fun θ => Real.sin (θ ⟨0, by decide⟩)) (Real.measurable_sin.comp (measurable_pi_apply _))
    fun θ _ => Real.abs_sin_le_one _⟩

/-- The parameter has a finite posterior mean. -/
theorem XRun.free_mean : Integrable (fun θ : Fin (nS XRun.flags) → ℝ => θ ⟨0, by decide⟩)
    (posteriorMeasure (m := 1) XRun.flags XRun.freeSpecs
      (fun θ _ => θ ⟨0, by decide⟩ * θ ⟨0, by decide⟩) (fun _ => 0) (fun _ => 1)) := by
  unfold posteriorMeasure
  have hm : Measurable (posteriorDensity (m := 1) XRun.flags XRun.freeSpecs
      (fun θ _ => θ ⟨0, by decide⟩ * θ ⟨0, by decide⟩) (fun _ => 0) (fun _ => 1)) :=
    measurable_posteriorDensity (by fun_prop) measurable_const
  rw [integrable_withDensity_iff hm.ennreal_ofReal (ae_of_all _ fun θ => ENNReal.ofReal_lt_top)]
  have hi : Integrable (fun θ : Fin (nS XRun.flags) → ℝ => ∏ i, (θ i * Real.exp (-(1 / 2) * θ i ^ 2))) :=
    Integrable.fintype_prod (f := fun _ x => x * Real.exp (-(1 / 2) * x ^ 2))
      fun _ => integrable_mul_exp_neg_mul_sq (by norm_num)
  refine hi.congr (ae_of_all _ fun θ => ?_)
  have hu : (Finset.univ : Finset (Fin (nS XRun.flags))) = {⟨0, by decide⟩} := by decide
  simp only [XRun.free_density]
  rw [hu, Finset.prod_singleton, Finset.prod_singleton, ENNReal.toReal_ofReal (Real.exp_pos _).le]

/-- C113 for that posterior: the average of the rows themselves, from start 1000000. -/
example : ∃ K : ℕ, ∀ k : ℕ, K ≤ k →
    1 - 1 / 100 ≤
      (coinLaw (nS XRun.flags)).real {s | ∃ out, ∃ t : ℕ → Fin (nS XRun.flags) → ℝ,
        runSimulation XRun.user (coinRng (nS XRun.flags)) exactLapack 0
          (newObj (m := 1) (XRun.freeAt fun _ => 1000000) (defineSimulationOptions { nsimu := k, method := .dr })
            (XRun.extra 1 1) XRun.settings XRun.data) s false = .ok out ∧
        (∀ j : ℕ, j < k → out.results.chain[j]? = some (finVec (t j))) ∧
        |(∑ j ∈ Finset.range k, t j ⟨0, by decide⟩) / k -
          (∫ θ, θ ⟨0, by decide⟩ ∂(posteriorMeasure (m := 1) XRun.flags XRun.freeSpecs
            (fun θ _ => θ ⟨0, by decide⟩ * θ ⟨0, by decide⟩) (fun _ => 0) (fun _ => 1))) /
          (posteriorMeasure (m := 1) XRun.flags XRun.freeSpecs
            (fun θ _ => θ ⟨0, by decide⟩ * θ ⟨0, by decide⟩) (fun _ => 0) (fun _ => 1)).real Set.univ| < 1 / 10} := by
  obtain ⟨K, h⟩ := C113_means
    (opts := defineSimulationOptions { nsimu := 2, method := .dr }) XRun.freeProblem (coinIdeal _)
    XRun.free_mass.1 XRun.free_mass.2 (XRun.free_inLimits fun _ => 1000000) (η := 1 / 10) (ε := 1 / 100)
    (by norm_num) (by norm_num) (measurable_pi_apply _) XRun.free_mean
  exact ⟨K, fun k hk => h k hk 0⟩

end Verif
