import Verif.Props.AdaptiveJointConvergence
import Verif.Props.Estimates

/-! # The reported statistics of adaptive runs estimate the posterior

C141: the means and standard deviations of `chainstats` for chains of `am` and `dram` approach those of the posterior
unless the covariance collapses.  C142: the Gelman-Rubin factors of several such chains approach 1 unless the
covariance of one of them collapses. -/

set_option linter.unusedSectionVars false

namespace Verif
open XR MeasureTheory Function ProbabilityTheory
open scoped ENNReal

section general
variable {σ X : Type} [MeasurableSpace σ] [MeasurableSpace X] {μ : Measure σ} [IsProbabilityMeasure μ] {π : Measure X}
  [IsProbabilityMeasure π]

/-- averages of values and squares outside a set, from the averages of each of them -/
theorem moments_outside {T : ℕ → σ → X} (hT : ∀ j, Measurable (T j)) {ι : Type} [Fintype ι] {g : ι → X → ℝ}
    (hg : ∀ i, Measurable (g i)) (hi : ∀ i, Integrable (fun y => g i y ^ 2) π) {k : ℕ} {δ b : ℝ}
    (h1 : ∀ i, 1 - b ≤ μ.real {s | |(∑ j ∈ Finset.range k, g i (T j s)) / k - ∫ y, g i y ∂π| < δ})
    (h2 : ∀ i, 1 - b ≤ μ.real {s | |(∑ j ∈ Finset.range k, g i (T j s) ^ 2) / k - ∫ y, g i y ^ 2 ∂π| < δ}) :
    ∃ B, MeasurableSet B ∧ μ.real B ≤ 2 * Fintype.card ι * b ∧ ∀ s, s ∉ B → ∀ i,
      |(∑ j ∈ Finset.range k, g i (T j s)) / k - ∫ y, g i y ∂π| < δ ∧
      |(∑ j ∈ Finset.range k, g i (T j s) ^ 2) / k -
        (∫ y, (g i y - ∫ z, g i z ∂π) ^ 2 ∂π + (∫ z, g i z ∂π) ^ 2)| < δ := by
  have hm : ∀ f : X → ℝ, Measurable f → ∀ p : ℝ,
      MeasurableSet {s | |(∑ j ∈ Finset.range k, f (T j s)) / k - p| < δ} := fun f hf p => by
    have h1 : Measurable fun s => ∑ j ∈ Finset.range k, f (T j s) :=
      Finset.measurable_sum _ fun j _ => hf.comp (hT j)
    exact measurableSet_lt ((h1.div_const _).sub_const _).abs measurable_const
  have hm1 := fun i => hm (g i) (hg i) (∫ y, g i y ∂π)
  have hm2 := fun i => hm (fun y => g i y ^ 2) ((hg i).pow_const 2) (∫ y, g i y ^ 2 ∂π)
  refine ⟨⋃ i, ({s | |(∑ j ∈ Finset.range k, g i (T j s)) / k - ∫ y, g i y ∂π| < δ}ᶜ ∪
    {s | |(∑ j ∈ Finset.range k, g i (T j s) ^ 2) / k - ∫ y, g i y ^ 2 ∂π| < δ}ᶜ),
    MeasurableSet.iUnion fun i => (hm1 i).compl.union (hm2 i).compl, ?_, fun s hs i => ?_⟩
  · calc _ ≤ ∑ i, μ.real ({s | |(∑ j ∈ Finset.range k, g i (T j s)) / k - ∫ y, g i y ∂π| < δ}ᶜ ∪
          {s | |(∑ j ∈ Finset.range k, g i (T j s) ^ 2) / k - ∫ y, g i y ^ 2 ∂π| < δ}ᶜ) :=
          measureReal_iUnion_fintype_le _
      _ ≤ ∑ _i : ι, 2 * b := Finset.sum_le_sum fun i _ => by
          refine (measureReal_union_le _ _).trans ?_
          rw [probReal_compl_eq_one_sub (hm1 i), probReal_compl_eq_one_sub (hm2 i)]
          linarith [h1 i, h2 i]
      _ = 2 * Fintype.card ι * b := by simp; ring
  · have h3 : ¬ _ := fun h => hs (Set.mem_iUnion.2 ⟨i, h⟩)
    rw [Set.mem_union, not_or, Set.notMem_compl_iff, Set.notMem_compl_iff] at h3
    rw [← (second_moment (hg i) (hi i)).2]
    exact h3

end general

section fixed
variable {σ : Type} [MeasurableSpace σ] {μ : Measure σ} [IsProbabilityMeasure μ] {G : Rng σ XR} {N m : ℕ}
  {flags : Fin N → Bool} {U : UserFuns XR N (nS flags) m} {L : Lapack XR}
  {specs : Fin N → ParamSpec XR} {opts : SimOpts XR}
  {extra : ExtraOpts XR (nS flags)} {ms : ModelSettings XR} {data : Data}
  {q : (Fin (nS flags) → ℝ) → Fin m → ℝ} {r : (Fin (nS flags) → ℝ) → ℝ} {v : Fin m → ℝ}

/-- values within finite limits and their squares are bounded -/
theorem FiniteLimits.square (h : FiniteLimits flags specs) : ∃ C : ℝ, 0 < C ∧
    ∀ θ : Fin (nS flags) → ℝ, InLimits flags specs (finVec θ) → ∀ i, |θ i| ≤ C ∧ |θ i ^ 2| ≤ C := by
  obtain ⟨a, b, -, hbox⟩ := h.box
  have h0 : 0 ≤ ∑ i, (|a i| + |b i|) := Finset.sum_nonneg fun i _ => by positivity
  refine ⟨(1 + ∑ i, (|a i| + |b i|)) ^ 2, by positivity, fun θ hθ i => ?_⟩
  have hθ' : θ ∈ Set.Icc a b := by rw [← hbox]; exact hθ
  have h1 : |a i| + |b i| ≤ ∑ i, (|a i| + |b i|) :=
    Finset.single_le_sum (f := fun i => |a i| + |b i|) (fun j _ => by positivity) (Finset.mem_univ i)
  have h2 : |θ i| ≤ |a i| + |b i| := by
    have := hθ'.1 i
    have := hθ'.2 i
    rw [abs_le]
    constructor
    · linarith [neg_abs_le (a i), abs_nonneg (b i)]
    · linarith [le_abs_self (b i), abs_nonneg (a i)]
  have h3 := abs_nonneg (θ i)
  rw [abs_pow]
  constructor <;> nlinarith

/-- the rows of runs of length `k` are measurable functions of the generator -/
theorem adaptive_rows_measurable
    (H : ∀ k : ℤ, 1 < k → AdaptiveProblem U G L specs { opts with nsimu := k } extra ms data q r v)
    (D : IdealRng G (nS flags) μ) (hall : ∀ k, flags k = true → (specs k).adapt = true) {k : ℕ} (hk : 1 < k) :
    ∃ T : ℕ → σ → Fin (nS flags) → ℝ, (∀ j, Measurable (T j)) ∧ ∀ s fuel, ∃ out,
      runSimulation U G L fuel (newObj specs { opts with nsimu := k } extra ms data) s false = .ok out ∧
      out.results.chain = List.ofFn fun j : Fin k => finVec (T j s) := by
  have H2 := H 2 (by norm_num)
  obtain ⟨hL, ds, ε, sc, x, hds0, hsc0, hx0, hproc⟩ := adaptive_facts H D hall
  have hdens : (fun θ => (pointAt (logPost flags specs q r v) θ).density) = posteriorDensity flags specs q r v :=
    funext (logPost_density v)
  have hd : Measurable fun θ => (pointAt (logPost flags specs q r v) θ).density := by
    rw [hdens]; exact measurable_posteriorDensity H2.measurable.1 H2.measurable.2
  obtain ⟨R0, Q, h⟩ := hproc k (by exact_mod_cast hk)
  refine ⟨fun j s => ((histAfter (factorMove D (logPost flags specs q r v) ds opts.ntry)
    (nextFactor hL opts.adaptint (fun _ => false) Q ε sc) x R0 j s).1 j).1, fun j =>
    measurable_fst.comp ((measurable_pi_apply j).comp
    (measurable_fst.comp (histAfter_fresh (measurable_factorMove D hd ds opts.ntry)
      (fresh_factorMove D hd hds0 opts.ntry) (measurable_nextFactor _ _ _ _ _ _) x R0 j).1)), fun s fuel => ?_⟩
  obtain ⟨out, rows, ho, hr, hl, hp⟩ := h s fuel
  refine ⟨out, ho, ?_⟩
  refine rows_eq (g := fun j => finVec ((histAfter (factorMove D (logPost flags specs q r v) ds opts.ntry)
    (nextFactor hL opts.adaptint (fun _ => false) Q ε sc) x R0 j s).1 j).1) ?_ fun j hj => ?_
  · rw [hr, List.length_map]; exact_mod_cast hl
  · rw [hr, List.getElem?_map, hp j (by exact_mod_cast hj) j le_rfl]
    rfl

/-- the event of `C134` in terms of those functions -/
theorem average_rows {o : Obj XR flags m} {fuel k : ℕ} {T : ℕ → σ → Fin (nS flags) → ℝ}
    (hrun : ∀ s, ∃ out, runSimulation U G L fuel o s false = .ok out ∧
      out.results.chain = List.ofFn fun j : Fin k => finVec (T j s)) (f : (Fin (nS flags) → ℝ) → ℝ) (δ : ℝ) :
    {s | ∃ out, ∃ t : ℕ → Fin (nS flags) → ℝ, runSimulation U G L fuel o s false = .ok out ∧
      (∀ j : ℕ, j < k → out.results.chain[j]? = some (finVec (t j))) ∧
      |(∑ j ∈ Finset.range k, f (t j)) / k - (∫ θ, f θ ∂posteriorMeasure flags specs q r v) /
        (posteriorMeasure flags specs q r v).real Set.univ| < δ} ⊆
    {s | |(∑ j ∈ Finset.range k, f (T j s)) / k - ∫ θ, f θ ∂posteriorLaw flags specs q r v| < δ} := by
  rintro s ⟨out, t, ho, ht, hs⟩
  obtain ⟨out', ho', hch⟩ := hrun s
  rw [ho] at ho'
  cases ho'
  have hTt : ∀ j ∈ Finset.range k, f (t j) = f (T j s) := fun j hj => by
    have hj := Finset.mem_range.1 hj
    have := ht j hj
    rw [hch, List.getElem?_ofFn, dif_pos hj] at this
    rw [finVec_injective (Option.some.inj this)]
  rw [Finset.sum_congr rfl hTt] at hs
  unfold posteriorLaw
  rw [Set.mem_ofPred_eq, integral_normalized]
  exact hs

/-- the averages of values and squares over adaptive chains, outside one measurable set -/
theorem adaptive_moments
    (H : ∀ k : ℤ, 1 < k → AdaptiveProblem U G L specs { opts with nsimu := k } extra ms data q r v)
    (D : IdealRng G (nS flags) μ) (hlim : FiniteLimits flags specs)
    {Z : ℝ} (hZ : ∀ θ, posteriorDensity flags specs q r v θ ≤ Z)
    (hntry : opts.ntry ≤ 2) (hai : 0 < opts.adaptint) (hall : ∀ k, flags k = true → (specs k).adapt = true)
    {δ : ℝ} (hδ : 0 < δ) :
    ∃ A : ℝ, 0 ≤ A ∧ ∀ e c : ℝ, 0 < e → 0 < c → ∃ K J k₀ : ℕ, K ≤ J ∧ ∀ k : ℕ, 1 < k → k₀ ≤ k → ∀ fuel : ℕ,
      ∃ B, MeasurableSet B ∧
        μ.real B ≤ e + A * ((∑ j ∈ Finset.Ico J k, μ.real {s | ∃ out, ∃ rows : List (Fin (nS flags) → ℝ),
          runSimulation U G L fuel (newObj specs { opts with nsimu := k } extra ms data) s false = .ok out ∧
          out.results.chain = rows.map finVec ∧
          ∃ w : Fin (nS flags) → ℝ, ∑ i, ∑ l, w i * sampleCov (rows.take (j - K)) i l * w l < c * ∑ i, w i ^ 2}) / k) ∧
        ∀ s, s ∉ B → ∃ out, ∃ t : ℕ → Fin (nS flags) → ℝ,
          runSimulation U G L fuel (newObj specs { opts with nsimu := k } extra ms data) s false = .ok out ∧
          (out.results.chain = List.ofFn fun j : Fin k => finVec (t j)) ∧ ∀ i,
          |(∑ j ∈ Finset.range k, t j i) / k - meanUnder (posteriorMeasure flags specs q r v) fun θ => θ i| < δ ∧
          |(∑ j ∈ Finset.range k, t j i ^ 2) / k - (varUnder (posteriorMeasure flags specs q r v) (fun θ => θ i) +
            (meanUnder (posteriorMeasure flags specs q r v) fun θ => θ i) ^ 2)| < δ := by
  have H2 := H 2 (by norm_num)
  obtain ⟨hZ0, hZt, hZS⟩ := posterior_mass (v := v) hlim H2.measurable.1 H2.measurable.2 hZ
  have hprob : IsProbabilityMeasure (posteriorLaw flags specs q r v) := ⟨by
    unfold posteriorLaw
    rw [Measure.smul_apply, smul_eq_mul, ENNReal.inv_mul_cancel hZ0 hZt]⟩
  obtain ⟨C, hC, hCb⟩ := hlim.square
  have hn : 0 < nS flags := H2.valid.sampled
  have hn' : (0 : ℝ) < nS flags := by exact_mod_cast hn
  have hS0 : posteriorLaw flags specs q r v {θ | InLimits flags specs (finVec θ)}ᶜ = 0 := by
    unfold posteriorLaw
    rw [Measure.smul_apply, hZS, smul_zero]
  have hint : ∀ i : Fin (nS flags), Integrable (fun θ => θ i ^ 2) (posteriorLaw flags specs q r v) := fun i => by
    refine Integrable.of_bound ((measurable_pi_apply i).pow_const 2).aestronglyMeasurable C ?_
    have : ∀ᵐ θ ∂posteriorLaw flags specs q r v, θ ∈ {θ | InLimits flags specs (finVec θ)} := hS0
    exact this.mono fun θ hθ => (hCb θ hθ i).2
  refine ⟨2 * nS flags * (16 * C ^ 2 / δ ^ 2), by positivity, fun e c he hc => ?_⟩
  obtain ⟨K, J, k₀, hKJ, h⟩ := C134_adaptive_averages H D hlim hZ hntry hai hall
    (e := e / (2 * nS flags)) (by positivity) hc hδ hC
  refine ⟨K, J, k₀, hKJ, fun k hk hkk fuel => ?_⟩
  have h := h k hk hkk fuel
  generalize (∑ j ∈ Finset.Ico J k, μ.real {s | ∃ out, ∃ rows : List (Fin (nS flags) → ℝ),
    runSimulation U G L fuel (newObj specs { opts with nsimu := k } extra ms data) s false = .ok out ∧
    out.results.chain = rows.map finVec ∧
    ∃ w : Fin (nS flags) → ℝ, ∑ i, ∑ l, w i * sampleCov (rows.take (j - K)) i l * w l < c * ∑ i, w i ^ 2}) / (k : ℝ) =
    col at h ⊢
  obtain ⟨T, hT, hrun⟩ := adaptive_rows_measurable H D hall hk
  have hav : ∀ f : (Fin (nS flags) → ℝ) → ℝ, Measurable f →
      (∀ θ, InLimits flags specs (finVec θ) → |f θ| ≤ C) →
      1 - (e / (2 * nS flags) + 16 * C ^ 2 / δ ^ 2 * col) ≤
        μ.real {s | |(∑ j ∈ Finset.range k, f (T j s)) / k - ∫ θ, f θ ∂posteriorLaw flags specs q r v| < δ} :=
    fun f hf hfC => (h f hf hfC).trans (measureReal_mono (average_rows (fun s => hrun s fuel) f δ))
  clear h
  obtain ⟨B, hB, hBb, hgood⟩ := moments_outside (μ := μ) (π := posteriorLaw flags specs q r v) hT
    (g := fun (i : Fin (nS flags)) θ => θ i) (fun i => measurable_pi_apply i) hint (k := k) (δ := δ)
    (fun i => hav (fun θ => θ i) (measurable_pi_apply i) fun θ hθ => (hCb θ hθ i).1)
    (fun i => hav (fun θ => θ i ^ 2) ((measurable_pi_apply i).pow_const 2) fun θ hθ => (hCb θ hθ i).2)
  refine ⟨B, hB, hBb.trans (le_of_eq ?_), fun s hs => ?_⟩
  · rw [Fintype.card_fin]
    field_simp
  · obtain ⟨out, ho, hch⟩ := hrun s fuel
    refine ⟨out, fun j => T j s, ho, hch, fun i => ?_⟩
    have := hgood s hs i
    unfold posteriorLaw at this
    rw [variance_normalized, integral_normalized] at this
    exact this

/-- **C141** the reported means and standard deviations of adaptive chains estimate those of the posterior unless the
covariance collapses.  Methods `am` and `dram` with at most two stages (the default), all sampled
parameters adapted, finite limits and a bounded posterior: for every `η` there is `A` such that for all `e, c > 0`
and all long enough runs, except with probability `e` plus `A` times the average over the rows `j` of the probability
that the sample covariance of the first `j - K` rows is in some direction below `c`, the run
succeeds, `chainstats` of its chain gives a table, and for every parameter the reported mean and
standard deviation are within `η` of the posterior mean and standard deviation. -/
theorem C141_adaptive_chainstats
    (H : ∀ k : ℤ, 1 < k → AdaptiveProblem U G L specs { opts with nsimu := k } extra ms data q r v)
    (D : IdealRng G (nS flags) μ) (hlim : FiniteLimits flags specs)
    {Z : ℝ} (hZ : ∀ θ, posteriorDensity flags specs q r v θ ≤ Z)
    (hntry : opts.ntry ≤ 2) (hai : 0 < opts.adaptint) (hall : ∀ k, flags k = true → (specs k).adapt = true)
    {η : ℝ} (hη : 0 < η)
    (hann : ℕ → ℕ → XR) (cdf : XR → XR) {iact : List XR → Except PyErr (XR × ℕ)}
    (hia : ∀ l, l ≠ [] → ∃ a, iact l = .ok a) :
    ∃ A : ℝ, 0 ≤ A ∧ ∀ e c : ℝ, 0 < e → 0 < c → ∃ K J k₀ : ℕ, K ≤ J ∧ ∀ k : ℕ, k₀ ≤ k → ∀ fuel : ℕ,
      1 - (e + A * ((∑ j ∈ Finset.Ico J k, μ.real {s | ∃ out, ∃ rows : List (Fin (nS flags) → ℝ),
          runSimulation U G L fuel (newObj specs { opts with nsimu := k } extra ms data) s false = .ok out ∧
          out.results.chain = rows.map finVec ∧
          ∃ w : Fin (nS flags) → ℝ, ∑ i, ∑ l, w i * sampleCov (rows.take (j - K)) i l * w l < c * ∑ i, w i ^ 2}) / k)) ≤
        μ.real {s | ∃ out S,
          runSimulation U G L fuel (newObj specs { opts with nsimu := k } extra ms data) s false = .ok out ∧
          chainstats (K := ℚ) hann cdf iact (some out.results.chain) = .ok (some S) ∧
          ∀ i, ∃ mean std, S.mean i = .fin mean ∧ S.std i = .fin std ∧
            |mean - meanUnder (posteriorMeasure flags specs q r v) fun θ => θ i| < η ∧
            |std - Real.sqrt (varUnder (posteriorMeasure flags specs q r v) fun θ => θ i)| < η} := by
  choose d hd0 hd using fun i : Fin (nS flags) => sqrt_near
    (meanUnder (posteriorMeasure flags specs q r v) fun θ => θ i)
    (varUnder (posteriorMeasure flags specs q r v) fun θ => θ i) hη
  obtain ⟨δ, hδ, hδd⟩ := exists_common hd0
  obtain ⟨A, hA, h⟩ := adaptive_moments H D hlim hZ hntry hai hall (lt_min hδ hη)
  refine ⟨A, hA, fun e c he hc => ?_⟩
  obtain ⟨K, J, k₀, hKJ, h⟩ := h e c he hc
  refine ⟨K, J, k₀ + 40, hKJ, fun k hk fuel => ?_⟩
  obtain ⟨B, hB, hBe, hgood⟩ := h k (by omega) (by omega) fuel
  refine (sub_le_sub_left hBe 1).trans ?_
  rw [← probReal_compl_eq_one_sub hB]
  refine measureReal_mono fun s hs => ?_
  obtain ⟨out, t, ho, hch, ht⟩ := hgood s hs
  obtain ⟨S, hS, hm⟩ := chainstats_moments hann cdf iact hia (by omega) t hch
  refine ⟨out, S, ho, hS, fun i => ⟨_, _, (hm i).1, (hm i).2, (ht i).1.trans_le (min_le_right _ _), ?_⟩⟩
  exact hd i _ _ ((ht i).1.trans_le ((min_le_left _ _).trans (hδd _)))
    ((ht i).2.trans_le ((min_le_left _ _).trans (hδd _)))

theorem posterior_same {sp : Fin N → ParamSpec XR} 
    (h : ∀ x, InLimits flags sp (finVec x) ↔ InLimits flags specs (finVec x)) :
    posteriorMeasure flags sp q r v = posteriorMeasure flags specs q r v := by
  unfold posteriorMeasure posteriorDensity
  have : {θ | InLimits flags sp (finVec θ)} = {θ | InLimits flags specs (finVec θ)} := Set.ext h
  rw [this]

/-- **C142** the Gelman-Rubin factors of adaptive chains approach 1 unless a covariance collapses: several chains with
the same limits and any starts (`sp ch`), with generators that each have the law of an ideal one but
may depend on each other.  For every `η` there is `A` such that for all `e, c > 0` and all long enough runs, except
with probability `e` plus `A` times the sum over the chains of the averages over the rows of the
probabilities of collapse, all runs succeed, `gelman_rubin` gives one entry per
parameter, and every factor is within `η` of 1 and both variance estimates are within `η` of the posterior
variance. -/
theorem C142_adaptive_gelman_rubin {M : ℕ} (hM : 2 ≤ M) {sp : Fin M → Fin N → ParamSpec XR}
    (hsame : ∀ ch x, InLimits flags (sp ch) (finVec x) ↔ InLimits flags specs (finVec x))
    (H : ∀ ch, ∀ k : ℤ, 1 < k → AdaptiveProblem U G L (sp ch) { opts with nsimu := k } extra ms data q r v)
    (D : IdealRng G (nS flags) μ) (hlim : ∀ ch, FiniteLimits flags (sp ch))
    {Z : ℝ} (hZ : ∀ θ, posteriorDensity flags specs q r v θ ≤ Z)
    (hntry : opts.ntry ≤ 2) (hai : 0 < opts.adaptint)
    (hall : ∀ ch k, flags k = true → (sp ch k).adapt = true)
    {Ω : Type} [MeasurableSpace Ω] {P : Measure Ω} [IsProbabilityMeasure P] {st : Fin M → Ω → σ}
    (hst : ∀ ch, MeasurePreserving (st ch) P μ) {η : ℝ} (hη : 0 < η) :
    ∃ A : ℝ, 0 ≤ A ∧ ∀ e c : ℝ, 0 < e → 0 < c → ∃ K J : Fin M → ℕ, ∃ k₀ : ℕ, (∀ ch, K ch ≤ J ch) ∧
      ∀ k : ℕ, k₀ ≤ k → ∀ fuel : ℕ,
      1 - (e + A * ∑ ch, (∑ j ∈ Finset.Ico (J ch) k, μ.real {s | ∃ out, ∃ rows : List (Fin (nS flags) → ℝ),
          runSimulation U G L fuel (newObj (sp ch) { opts with nsimu := k } extra ms data) s false = .ok out ∧
          out.results.chain = rows.map finVec ∧
          ∃ w : Fin (nS flags) → ℝ,
            ∑ i, ∑ l, w i * sampleCov (rows.take (j - K ch)) i l * w l < c * ∑ i, w i ^ 2}) / k) ≤
        P.real {ω | ∃ out : Fin M → RunOut XR σ flags m, ∃ rs,
          (∀ ch, runSimulation U G L fuel (newObj (sp ch) { opts with nsimu := k } extra ms data) (st ch ω) false =
            .ok (out ch)) ∧
          gelmanRubin (List.ofFn fun ch => (out ch).results.chain) = .ok rs ∧ rs.length = nS flags ∧
          ∀ i : Fin (nS flags), ∃ e R W V, rs[(i : ℕ)]? = some e ∧ e.R = .fin R ∧ e.W = .fin W ∧ e.V = .fin V ∧
            |R - 1| < η ∧ |W - varUnder (posteriorMeasure flags specs q r v) fun θ => θ i| < η ∧
            |V - varUnder (posteriorMeasure flags specs q r v) fun θ => θ i| < η} := by
  classical
  have hpost : ∀ ch, posteriorMeasure flags (sp ch) q r v = posteriorMeasure flags specs q r v := fun ch =>
    posterior_same (hsame ch)
  have hZ' : ∀ ch θ, posteriorDensity flags (sp ch) q r v θ ≤ Z := fun ch θ => by
    have : {θ | InLimits flags (sp ch) (finVec θ)} = {θ | InLimits flags specs (finVec θ)} := Set.ext (hsame ch)
    have h1 := hZ θ
    unfold posteriorDensity at h1 ⊢
    rwa [this]
  have hv : ∀ i : Fin (nS flags), 0 < varUnder (posteriorMeasure flags specs q r v) fun θ => θ i := fun i => by
    have hl := hlim ⟨0, by omega⟩
    have H2 := H ⟨0, by omega⟩ 2 (by norm_num)
    obtain ⟨hZ0, hZt, hZS⟩ := posterior_mass (v := v) hl H2.measurable.1 H2.measurable.2 (hZ' ⟨0, by omega⟩)
    rw [hpost] at hZ0 hZt hZS
    have hprob : IsProbabilityMeasure (posteriorLaw flags specs q r v) := ⟨by
      unfold posteriorLaw
      rw [Measure.smul_apply, smul_eq_mul, ENNReal.inv_mul_cancel hZ0 hZt]⟩
    obtain ⟨C, hC, hCb⟩ := hl.square
    have hint : Integrable (fun θ => θ i ^ 2) (posteriorLaw flags specs q r v) := by
      refine Integrable.of_bound ((measurable_pi_apply i).pow_const 2).aestronglyMeasurable C ?_
      have : ∀ᵐ θ ∂posteriorLaw flags specs q r v, θ ∈ {θ | InLimits flags (sp ⟨0, by omega⟩) (finVec θ)} := by
        change posteriorLaw flags specs q r v {θ | InLimits flags (sp ⟨0, by omega⟩) (finVec θ)}ᶜ = 0
        unfold posteriorLaw
        rw [Measure.smul_apply, hZS, smul_zero]
      exact this.mono fun θ hθ => (hCb θ hθ i).2
    have h1 := variance_pos (g := fun θ : Fin (nS flags) → ℝ => θ i) (measurable_pi_apply _) hint fun c => by
      unfold posteriorLaw posteriorMeasure
      rw [Measure.smul_apply, hyperplane_withDensity, smul_zero]
    unfold posteriorLaw at h1
    rwa [variance_normalized] at h1
  choose d hd0 Kd hKd2 hd using fun i : Fin (nS flags) => psrf_near hM
    (meanUnder (posteriorMeasure flags specs q r v) fun θ => θ i) (hv i) hη
  obtain ⟨δ, hδ, hδd⟩ := exists_common hd0
  have hM0 : (0 : ℝ) < M := by exact_mod_cast (by omega : 0 < M)
  choose A hA h using fun ch => adaptive_moments (H ch) D (hlim ch) (hZ' ch) hntry hai (hall ch) hδ
  refine ⟨∑ ch, A ch, Finset.sum_nonneg fun ch _ => hA ch, fun e c he hc => ?_⟩
  choose K J k₀ hKJ h using fun ch => h ch (e / M) c (div_pos he hM0) hc
  refine ⟨K, J, ∑ ch, k₀ ch + ∑ i, Kd i + 2, hKJ, fun k hk fuel => ?_⟩
  have hkc : ∀ ch, k₀ ch ≤ k := fun ch =>
    (Finset.single_le_sum (f := k₀) (fun _ _ => Nat.zero_le _) (Finset.mem_univ ch)).trans (by omega)
  have hki : ∀ i, Kd i ≤ k := fun i =>
    (Finset.single_le_sum (f := Kd) (fun _ _ => Nat.zero_le _) (Finset.mem_univ i)).trans (by omega)
  choose B hB hBe hgood using fun ch => h ch k (by omega) (hkc ch) fuel
  have hBm : MeasurableSet (⋃ ch, st ch ⁻¹' B ch) := MeasurableSet.iUnion fun ch => (hst ch).measurable (hB ch)
  generalize hcol : (fun ch => (∑ j ∈ Finset.Ico (J ch) k, μ.real {s | ∃ out, ∃ rows : List (Fin (nS flags) → ℝ),
          runSimulation U G L fuel (newObj (sp ch) { opts with nsimu := k } extra ms data) s false = .ok out ∧
          out.results.chain = rows.map finVec ∧
          ∃ w : Fin (nS flags) → ℝ,
            ∑ i, ∑ l, w i * sampleCov (rows.take (j - K ch)) i l * w l < c * ∑ i, w i ^ 2}) / (k : ℝ)) = col
  have hcol' := fun ch => congrFun hcol ch
  simp only [hcol'] at hBe ⊢
  have hcol0 : ∀ ch, 0 ≤ col ch := fun ch => by
    rw [← hcol]
    exact div_nonneg (Finset.sum_nonneg fun j _ => measureReal_nonneg) (Nat.cast_nonneg k)
  have hPB : P.real (⋃ ch, st ch ⁻¹' B ch) ≤ e + (∑ ch, A ch) * ∑ ch, col ch := by
    calc _ ≤ ∑ ch, P.real (st ch ⁻¹' B ch) := measureReal_iUnion_fintype_le _
      _ = ∑ ch, μ.real (B ch) := Finset.sum_congr rfl fun ch _ => by
          unfold Measure.real
          rw [(hst ch).measure_preimage (hB ch).nullMeasurableSet]
      _ ≤ ∑ ch : Fin M, (e / M + (∑ ch, A ch) * col ch) := Finset.sum_le_sum fun ch _ => (hBe ch).trans (by
          gcongr
          · exact hcol0 ch
          · exact Finset.single_le_sum (f := A) (fun ch _ => hA ch) (Finset.mem_univ ch))
      _ = _ := by
          rw [Finset.sum_add_distrib, ← Finset.mul_sum]
          simp; field_simp
  refine (sub_le_sub_left hPB 1).trans ?_
  rw [← probReal_compl_eq_one_sub hBm]
  refine measureReal_mono fun ω hω => ?_
  have hω' : ∀ ch, st ch ω ∉ B ch := by simpa using hω
  choose out t ho hch ht using fun ch => hgood ch (st ch ω) (hω' ch)
  obtain ⟨rs, hrs, hlen, hcl⟩ := gelmanRubin_columns hM (k := k) (by omega) (fun ch j => t ch j)
    (chains := List.ofFn fun ch => (out ch).results.chain) (by simp only [hch])
  refine ⟨out, rs, ho, hrs, hlen, fun i => ?_⟩
  obtain ⟨a, ha, hpa⟩ := hcl i
  obtain ⟨a', R, W, V, hpa', hR, hW, hV, h1, h2, h3⟩ := hd i k (hki _) (fun j ch => t ch j i) fun ch => by
    have := ht ch i
    rw [hpost] at this
    rw [avg_range fun j => t ch j i, avg_range fun j => t ch j i ^ 2]
    exact ⟨this.1.trans_le (hδd _), this.2.trans_le (hδd _)⟩
  obtain rfl : a = a' := Except.ok.inj (hpa.symm.trans hpa')
  exact ⟨a, R, W, V, ha, hR, hW, hV, h1, h2, h3⟩

end fixed

section joint
variable {σ : Type} [MeasurableSpace σ] {μ : Measure σ} [IsProbabilityMeasure μ] {G : Rng σ XR} {N m : ℕ}
  {flags : Fin N → Bool} {U : UserFuns XR N (nS flags) m} {L : Lapack XR}
  {specs : Fin N → ParamSpec XR} {opts : SimOpts XR}
  {extra : ExtraOpts XR (nS flags)} {ms : ModelSettings XR} {data : Data}
  {q : (Fin (nS flags) → ℝ) → Fin m → ℝ} {r : (Fin (nS flags) → ℝ) → ℝ} {Nobs N0 S20 v : Fin m → ℝ}

/-- the rows of runs of length `k` are measurable functions of the generator, up to null sets -/
theorem adaptive_joint_rows_measurable
    (H : ∀ k : ℤ, 1 < k → AdaptiveJointProblem U G L specs { opts with nsimu := k } extra ms data q r Nobs N0 S20 v)
    (D : IdealRng G (nS flags) μ) (D1 : IdealRng G 1 μ) (hall : ∀ k, flags k = true → (specs k).adapt = true)
    {k : ℕ} (hk : 1 < k) :
    ∃ T : ℕ → σ → (Fin (nS flags) → ℝ) × (Fin m → ℝ), (∀ j, Measurable (T j)) ∧
      ∀ᵐ s ∂μ, ∃ F, ∀ fuel, F ≤ fuel → ∃ out,
      runSimulation U G L fuel (newObj specs { opts with nsimu := k } extra ms data) s false = .ok out ∧
      out.results.chain = List.ofFn fun j : Fin k => finVec (T j s).1 := by
  have H2 := H 2 (by norm_num)
  obtain ⟨hL, ds, ε, sc, x, draw, hds0, hsc0, hx0, hdraw, hproc⟩ := adaptive_joint_facts H D D1 hall
  obtain ⟨R0, Q, -, h⟩ := hproc k (by exact_mod_cast hk)
  refine ⟨fun j s => ((histAfter (jointMove D specs q r N0 S20 draw ds opts.ntry)
    (nextOf Prod.fst hL opts.adaptint Q ε sc) (x, v) R0 j s).1 j).1,
    measurable_joint_row D H2.measurable.1 H2.measurable.2 hds0 H2.shapes hdraw hL Q ε sc (x, v) R0, ?_⟩
  filter_upwards [h] with s hs
  obtain ⟨F, hF⟩ := hs
  refine ⟨F, fun fuel hf => ?_⟩
  obtain ⟨out, rows, c, ho, hr, -, hp⟩ := hF fuel hf
  refine ⟨out, ho, rows_eq (g := fun j => finVec ((histAfter (jointMove D specs q r N0 S20 draw ds opts.ntry)
    (nextOf Prod.fst hL opts.adaptint Q ε sc) (x, v) R0 j s).1 j).1.1) ?_ fun j hj => ?_⟩
  · have : (out.results.chain.length : ℤ) = k :=
      (C02_chain_records_moves (H k (by exact_mod_cast hk)).valid.noRestart ho).1
    exact_mod_cast this
  · rw [hr, List.getElem?_map, (hp j (by exact_mod_cast hj)).1 j le_rfl]
    rfl

/-- the event of `C140` for functions of the values, in terms of those functions -/
theorem average_joint_rows {o : Obj XR flags m} {k : ℕ} {T : ℕ → σ → (Fin (nS flags) → ℝ) × (Fin m → ℝ)}
    (hrun : ∀ᵐ s ∂μ, ∃ F, ∀ fuel, F ≤ fuel → ∃ out, runSimulation U G L fuel o s false = .ok out ∧
      out.results.chain = List.ofFn fun j : Fin k => finVec (T j s).1) (f : (Fin (nS flags) → ℝ) → ℝ) (δ : ℝ) :
    μ.real {s | ∃ F, ∀ fuel, F ≤ fuel → ∃ out c, ∃ t : ℕ → (Fin (nS flags) → ℝ) × (Fin m → ℝ),
      runSimulation U G L fuel o s false = .ok out ∧ out.results.s2chain = some c ∧
      (∀ j : ℕ, j < k → out.results.chain[j]? = some (finVec (t j).1) ∧ c[j]? = some (finVec (t j).2)) ∧
      |(∑ j ∈ Finset.range k, f (t j).1) / k - (∫ p, f p.1 ∂jointPosterior flags specs q r Nobs N0 S20) /
        (jointPosterior flags specs q r Nobs N0 S20).real Set.univ| < δ} ≤
    μ.real {s | |(∑ j ∈ Finset.range k, f (T j s).1) / k - ∫ p, f p.1 ∂jointLaw flags specs q r Nobs N0 S20| < δ} := by
  refine ENNReal.toReal_mono (measure_ne_top _ _) (measure_mono_ae ?_)
  filter_upwards [hrun] with s hs h
  obtain ⟨F, hF⟩ := hs
  obtain ⟨F', h⟩ := h
  obtain ⟨out', ho', hch⟩ := hF (F + F') (by omega)
  obtain ⟨out, c, t, ho, -, ht, hs⟩ := h (F + F') (by omega)
  rw [ho] at ho'
  cases ho'
  have hTt : ∀ j ∈ Finset.range k, f (t j).1 = f (T j s).1 := fun j hj => by
    have hj := Finset.mem_range.1 hj
    have := (ht j hj).1
    rw [hch, List.getElem?_ofFn, dif_pos hj] at this
    rw [finVec_injective (Option.some.inj this)]
  rw [Finset.sum_congr rfl hTt] at hs
  change |_ - ∫ p, f p.1 ∂jointLaw flags specs q r Nobs N0 S20| < δ
  unfold jointLaw
  rw [integral_normalized]
  exact hs

/-- values have finite second moments under the joint posterior -/
theorem joint_square {M β : ℝ} (hlim : FiniteLimits flags specs)
    (hbd : BoundedProblem flags specs q r N0 S20 M β) (hq : Measurable q) (hr : Measurable r)
    (hshape : ∀ j, 0 < N0 j + Nobs j) :
    IsProbabilityMeasure (jointLaw flags specs q r Nobs N0 S20) ∧
    ∀ i : Fin (nS flags), Integrable (fun p : (Fin (nS flags) → ℝ) × (Fin m → ℝ) => p.1 i ^ 2)
      (jointLaw flags specs q r Nobs N0 S20) := by
  obtain ⟨hZ0, hZt, hZS⟩ := joint_mass hlim hbd hq hr hshape
  have hprob : IsProbabilityMeasure (jointLaw flags specs q r Nobs N0 S20) := ⟨by
    unfold jointLaw
    rw [Measure.smul_apply, smul_eq_mul, ENNReal.inv_mul_cancel hZ0 hZt]⟩
  refine ⟨hprob, fun i => ?_⟩
  obtain ⟨C, hC, hCb⟩ := hlim.square
  refine Integrable.of_bound (((measurable_pi_apply i).comp measurable_fst).pow_const 2).aestronglyMeasurable C ?_
  have : ∀ᵐ p ∂jointLaw flags specs q r Nobs N0 S20, p ∈ {p : (Fin (nS flags) → ℝ) × (Fin m → ℝ) |
      InLimits flags specs (finVec p.1) ∧ ∀ j, 0 < p.2 j} := by
    change jointLaw flags specs q r Nobs N0 S20 {p : (Fin (nS flags) → ℝ) × (Fin m → ℝ) |
      InLimits flags specs (finVec p.1) ∧ ∀ j, 0 < p.2 j}ᶜ = 0
    unfold jointLaw
    rw [Measure.smul_apply, hZS, smul_zero]
  exact this.mono fun p hp => (hCb p.1 hp.1 i).2

/-- the averages of values and squares over adaptive chains with sampled variances, outside one measurable set -/
theorem adaptive_joint_moments
    (H : ∀ k : ℤ, 1 < k → AdaptiveJointProblem U G L specs { opts with nsimu := k } extra ms data q r Nobs N0 S20 v)
    (D : IdealRng G (nS flags) μ) (D1 : IdealRng G 1 μ) (hlim : FiniteLimits flags specs) {Z β : ℝ}
    (hbd : BoundedProblem flags specs q r N0 S20 Z β)
    (hntry : opts.ntry ≤ 2) (hai : 0 < opts.adaptint) (hall : ∀ k, flags k = true → (specs k).adapt = true)
    {δ : ℝ} (hδ : 0 < δ) :
    ∃ A : ℝ, 0 ≤ A ∧ ∀ e c : ℝ, 0 < e → 0 < c → ∃ K J k₀ : ℕ, K ≤ J ∧ ∀ k : ℕ, 1 < k → k₀ ≤ k →
      ∃ B, MeasurableSet B ∧
        μ.real B ≤ e + A * ((∑ j ∈ Finset.Ico J k, μ.real {s | ∃ F, ∀ fuel, F ≤ fuel → ∃ out,
          ∃ rows : List (Fin (nS flags) → ℝ),
          runSimulation U G L fuel (newObj specs { opts with nsimu := k } extra ms data) s false = .ok out ∧
          out.results.chain = rows.map finVec ∧
          ∃ w : Fin (nS flags) → ℝ, ∑ i, ∑ l, w i * sampleCov (rows.take (j - K)) i l * w l < c * ∑ i, w i ^ 2}) / k) ∧
        ∀ᵐ s ∂μ, s ∉ B → ∃ F, ∀ fuel, F ≤ fuel → ∃ out, ∃ t : ℕ → Fin (nS flags) → ℝ,
          runSimulation U G L fuel (newObj specs { opts with nsimu := k } extra ms data) s false = .ok out ∧
          (out.results.chain = List.ofFn fun j : Fin k => finVec (t j)) ∧ ∀ i,
          |(∑ j ∈ Finset.range k, t j i) / k -
            meanUnder (jointPosterior flags specs q r Nobs N0 S20) fun p => p.1 i| < δ ∧
          |(∑ j ∈ Finset.range k, t j i ^ 2) / k -
            (varUnder (jointPosterior flags specs q r Nobs N0 S20) (fun p => p.1 i) +
            (meanUnder (jointPosterior flags specs q r Nobs N0 S20) fun p => p.1 i) ^ 2)| < δ := by
  have H2 := H 2 (by norm_num)
  obtain ⟨hprob, hint⟩ := joint_square hlim hbd H2.measurable.1 H2.measurable.2 H2.shapes
  obtain ⟨C, hC, hCb⟩ := hlim.square
  have hn : 0 < nS flags := H2.valid.sampled
  have hn' : (0 : ℝ) < nS flags := by exact_mod_cast hn
  refine ⟨2 * nS flags * (16 * C ^ 2 / δ ^ 2), by positivity, fun e c he hc => ?_⟩
  obtain ⟨K, J, k₀, hKJ, h⟩ := C140_adaptive_joint_averages H D D1 hlim hbd hntry hai hall
    (e := e / (2 * nS flags)) (by positivity) hc hδ hC
  refine ⟨K, J, k₀, hKJ, fun k hk hkk => ?_⟩
  have h := h k hk hkk
  generalize (∑ j ∈ Finset.Ico J k, μ.real {s | ∃ F, ∀ fuel, F ≤ fuel → ∃ out,
    ∃ rows : List (Fin (nS flags) → ℝ),
    runSimulation U G L fuel (newObj specs { opts with nsimu := k } extra ms data) s false = .ok out ∧
    out.results.chain = rows.map finVec ∧
    ∃ w : Fin (nS flags) → ℝ, ∑ i, ∑ l, w i * sampleCov (rows.take (j - K)) i l * w l < c * ∑ i, w i ^ 2}) / (k : ℝ) =
    col at h ⊢
  obtain ⟨T, hT, hrun⟩ := adaptive_joint_rows_measurable H D D1 hall hk
  have hav : ∀ f : (Fin (nS flags) → ℝ) → ℝ, Measurable f →
      (∀ θ, InLimits flags specs (finVec θ) → |f θ| ≤ C) →
      1 - (e / (2 * nS flags) + 16 * C ^ 2 / δ ^ 2 * col) ≤
        μ.real {s | |(∑ j ∈ Finset.range k, f (T j s).1) / k -
          ∫ p, f p.1 ∂jointLaw flags specs q r Nobs N0 S20| < δ} :=
    fun f hf hfC => (h (fun p => f p.1) (hf.comp measurable_fst) fun p hp _ => hfC _ hp).trans
      (average_joint_rows hrun f δ)
  clear h
  obtain ⟨B, hB, hBb, hgood⟩ := moments_outside (μ := μ) (π := jointLaw flags specs q r Nobs N0 S20) hT
    (g := fun (i : Fin (nS flags)) p => p.1 i) (fun i => (measurable_pi_apply i).comp measurable_fst) hint (k := k)
    (δ := δ)
    (fun i => hav (fun θ => θ i) (measurable_pi_apply i) fun θ hθ => (hCb θ hθ i).1)
    (fun i => hav (fun θ => θ i ^ 2) ((measurable_pi_apply i).pow_const 2) fun θ hθ => (hCb θ hθ i).2)
  refine ⟨B, hB, hBb.trans (le_of_eq ?_), ?_⟩
  · rw [Fintype.card_fin]
    field_simp
  · filter_upwards [hrun] with s hs hsB
    obtain ⟨F, hF⟩ := hs
    refine ⟨F, fun fuel hf => ?_⟩
    obtain ⟨out, ho, hch⟩ := hF fuel hf
    refine ⟨out, fun j => (T j s).1, ho, hch, fun i => ?_⟩
    have := hgood s hsB i
    unfold jointLaw at this
    rw [variance_normalized, integral_normalized] at this
    exact this

/-- **C141** with sampled error variances: the means and standard deviations reported for the parameters. -/
theorem C141_adaptive_chainstats_joint
    (H : ∀ k : ℤ, 1 < k → AdaptiveJointProblem U G L specs { opts with nsimu := k } extra ms data q r Nobs N0 S20 v)
    (D : IdealRng G (nS flags) μ) (D1 : IdealRng G 1 μ) (hlim : FiniteLimits flags specs) {Z β : ℝ}
    (hbd : BoundedProblem flags specs q r N0 S20 Z β)
    (hntry : opts.ntry ≤ 2) (hai : 0 < opts.adaptint) (hall : ∀ k, flags k = true → (specs k).adapt = true)
    {η : ℝ} (hη : 0 < η)
    (hann : ℕ → ℕ → XR) (cdf : XR → XR) {iact : List XR → Except PyErr (XR × ℕ)}
    (hia : ∀ l, l ≠ [] → ∃ a, iact l = .ok a) :
    ∃ A : ℝ, 0 ≤ A ∧ ∀ e c : ℝ, 0 < e → 0 < c → ∃ K J k₀ : ℕ, K ≤ J ∧ ∀ k : ℕ, k₀ ≤ k →
      1 - (e + A * ((∑ j ∈ Finset.Ico J k, μ.real {s | ∃ F, ∀ fuel, F ≤ fuel → ∃ out,
          ∃ rows : List (Fin (nS flags) → ℝ),
          runSimulation U G L fuel (newObj specs { opts with nsimu := k } extra ms data) s false = .ok out ∧
          out.results.chain = rows.map finVec ∧
          ∃ w : Fin (nS flags) → ℝ, ∑ i, ∑ l, w i * sampleCov (rows.take (j - K)) i l * w l < c * ∑ i, w i ^ 2}) / k)) ≤
        μ.real {s | ∃ F, ∀ fuel, F ≤ fuel → ∃ out S,
          runSimulation U G L fuel (newObj specs { opts with nsimu := k } extra ms data) s false = .ok out ∧
          chainstats (K := ℚ) hann cdf iact (some out.results.chain) = .ok (some S) ∧
          ∀ i, ∃ mean std, S.mean i = .fin mean ∧ S.std i = .fin std ∧
            |mean - meanUnder (jointPosterior flags specs q r Nobs N0 S20) fun p => p.1 i| < η ∧
            |std - Real.sqrt (varUnder (jointPosterior flags specs q r Nobs N0 S20) fun p => p.1 i)| < η} := by
  choose d hd0 hd using fun i : Fin (nS flags) => sqrt_near
    (meanUnder (jointPosterior flags specs q r Nobs N0 S20) fun p => p.1 i)
    (varUnder (jointPosterior flags specs q r Nobs N0 S20) fun p => p.1 i) hη
  obtain ⟨δ, hδ, hδd⟩ := exists_common hd0
  obtain ⟨A, hA, h⟩ := adaptive_joint_moments H D D1 hlim hbd hntry hai hall (lt_min hδ hη)
  refine ⟨A, hA, fun e c he hc => ?_⟩
  obtain ⟨K, J, k₀, hKJ, h⟩ := h e c he hc
  refine ⟨K, J, k₀ + 40, hKJ, fun k hk => ?_⟩
  obtain ⟨B, hB, hBe, hgood⟩ := h k (by omega) (by omega)
  refine (sub_le_sub_left hBe 1).trans ?_
  rw [← probReal_compl_eq_one_sub hB]
  refine ENNReal.toReal_mono (measure_ne_top _ _) (measure_mono_ae ?_)
  filter_upwards [hgood] with s hs hsB
  obtain ⟨F, hF⟩ := hs hsB
  refine ⟨F, fun fuel hf => ?_⟩
  obtain ⟨out, t, ho, hch, ht⟩ := hF fuel hf
  obtain ⟨S, hS, hm⟩ := chainstats_moments hann cdf iact hia (by omega) t hch
  refine ⟨out, S, ho, hS, fun i => ⟨_, _, (hm i).1, (hm i).2, (ht i).1.trans_le (min_le_right _ _), ?_⟩⟩
  exact hd i _ _ ((ht i).1.trans_le ((min_le_left _ _).trans (hδd _)))
    ((ht i).2.trans_le ((min_le_left _ _).trans (hδd _)))

theorem jointPosterior_same {sp : Fin N → ParamSpec XR}
    (h : ∀ x, InLimits flags sp (finVec x) ↔ InLimits flags specs (finVec x)) :
    jointPosterior flags sp q r Nobs N0 S20 = jointPosterior flags specs q r Nobs N0 S20 := by
  unfold jointPosterior jointDensity
  simp only [h]

/-- **C142** with sampled error variances; every chain may start at other variances, too (`ms ch`, `v ch`). -/
theorem C142_adaptive_gelman_rubin_joint {M : ℕ} (hM : 2 ≤ M) {sp : Fin M → Fin N → ParamSpec XR}
    {ms : Fin M → ModelSettings XR} {v : Fin M → Fin m → ℝ}
    (hsame : ∀ ch x, InLimits flags (sp ch) (finVec x) ↔ InLimits flags specs (finVec x))
    (H : ∀ ch, ∀ k : ℤ, 1 < k →
      AdaptiveJointProblem U G L (sp ch) { opts with nsimu := k } extra (ms ch) data q r Nobs N0 S20 (v ch))
    (D : IdealRng G (nS flags) μ) (D1 : IdealRng G 1 μ) (hlim : ∀ ch, FiniteLimits flags (sp ch)) {Z β : ℝ}
    (hbd : BoundedProblem flags specs q r N0 S20 Z β)
    (hntry : opts.ntry ≤ 2) (hai : 0 < opts.adaptint)
    (hall : ∀ ch k, flags k = true → (sp ch k).adapt = true)
    {Ω : Type} [MeasurableSpace Ω] {P : Measure Ω} [IsProbabilityMeasure P] {st : Fin M → Ω → σ}
    (hst : ∀ ch, MeasurePreserving (st ch) P μ) {η : ℝ} (hη : 0 < η) :
    ∃ A : ℝ, 0 ≤ A ∧ ∀ e c : ℝ, 0 < e → 0 < c → ∃ K J : Fin M → ℕ, ∃ k₀ : ℕ, (∀ ch, K ch ≤ J ch) ∧
      ∀ k : ℕ, k₀ ≤ k →
      1 - (e + A * ∑ ch, (∑ j ∈ Finset.Ico (J ch) k, μ.real {s | ∃ F, ∀ fuel, F ≤ fuel → ∃ out,
          ∃ rows : List (Fin (nS flags) → ℝ),
          runSimulation U G L fuel (newObj (sp ch) { opts with nsimu := k } extra (ms ch) data) s false = .ok out ∧
          out.results.chain = rows.map finVec ∧
          ∃ w : Fin (nS flags) → ℝ,
            ∑ i, ∑ l, w i * sampleCov (rows.take (j - K ch)) i l * w l < c * ∑ i, w i ^ 2}) / k) ≤
        P.real {ω | ∃ F, ∀ fuel, F ≤ fuel → ∃ out : Fin M → RunOut XR σ flags m, ∃ rs,
          (∀ ch, runSimulation U G L fuel (newObj (sp ch) { opts with nsimu := k } extra (ms ch) data) (st ch ω) false =
            .ok (out ch)) ∧
          gelmanRubin (List.ofFn fun ch => (out ch).results.chain) = .ok rs ∧ rs.length = nS flags ∧
          ∀ i : Fin (nS flags), ∃ e R W V, rs[(i : ℕ)]? = some e ∧ e.R = .fin R ∧ e.W = .fin W ∧ e.V = .fin V ∧
            |R - 1| < η ∧ |W - varUnder (jointPosterior flags specs q r Nobs N0 S20) fun p => p.1 i| < η ∧
            |V - varUnder (jointPosterior flags specs q r Nobs N0 S20) fun p => p.1 i| < η} := by
  classical
  have hpost : ∀ ch, jointPosterior flags (sp ch) q r Nobs N0 S20 = jointPosterior flags specs q r Nobs N0 S20 :=
    fun ch => jointPosterior_same (hsame ch)
  have hbd' : ∀ ch, BoundedProblem flags (sp ch) q r N0 S20 Z β := fun ch =>
    { sos := fun θ hθ => hbd.sos θ ((hsame ch θ).1 hθ), prior := fun θ hθ => hbd.prior θ ((hsame ch θ).1 hθ),
      pos := hbd.pos, rate := fun θ hθ => hbd.rate θ ((hsame ch θ).1 hθ) }
  have hv : ∀ i : Fin (nS flags), 0 < varUnder (jointPosterior flags specs q r Nobs N0 S20) fun p => p.1 i :=
    fun i => by
    have H2 := H ⟨0, by omega⟩ 2 (by norm_num)
    obtain ⟨hprob, hint⟩ := joint_square (hlim ⟨0, by omega⟩) (hbd' ⟨0, by omega⟩) H2.measurable.1 H2.measurable.2
      H2.shapes
    rw [jointLaw, hpost] at hprob
    have hint := hint i
    rw [jointLaw, hpost] at hint
    have h1 := variance_pos (g := fun p : (Fin (nS flags) → ℝ) × (Fin m → ℝ) => p.1 i)
      ((measurable_pi_apply _).comp measurable_fst) hint fun c => by
      unfold jointPosterior
      rw [Measure.smul_apply, withDensity_absolutelyContinuous _ _ (?_ :
        ((volume : Measure (Fin (nS flags) → ℝ)).prod (volume : Measure (Fin m → ℝ))) {z | z.1 i = c} = 0),
        smul_zero]
      have : {z : (Fin (nS flags) → ℝ) × (Fin m → ℝ) | z.1 i = c} = {θ | θ i = c} ×ˢ Set.univ := by
        ext z; simp
      rw [this, Measure.prod_prod, volume_pi, Measure.pi_hyperplane, zero_mul]
    rwa [variance_normalized] at h1
  choose d hd0 Kd hKd2 hd using fun i : Fin (nS flags) => psrf_near hM
    (meanUnder (jointPosterior flags specs q r Nobs N0 S20) fun p => p.1 i) (hv i) hη
  obtain ⟨δ, hδ, hδd⟩ := exists_common hd0
  have hM0 : (0 : ℝ) < M := by exact_mod_cast (by omega : 0 < M)
  choose A hA h using fun ch => adaptive_joint_moments (H ch) D D1 (hlim ch) (hbd' ch) hntry hai (hall ch) hδ
  refine ⟨∑ ch, A ch, Finset.sum_nonneg fun ch _ => hA ch, fun e c he hc => ?_⟩
  choose K J k₀ hKJ h using fun ch => h ch (e / M) c (div_pos he hM0) hc
  refine ⟨K, J, ∑ ch, k₀ ch + ∑ i, Kd i + 2, hKJ, fun k hk => ?_⟩
  have hkc : ∀ ch, k₀ ch ≤ k := fun ch =>
    (Finset.single_le_sum (f := k₀) (fun _ _ => Nat.zero_le _) (Finset.mem_univ ch)).trans (by omega)
  have hki : ∀ i, Kd i ≤ k := fun i =>
    (Finset.single_le_sum (f := Kd) (fun _ _ => Nat.zero_le _) (Finset.mem_univ i)).trans (by omega)
  choose B hB hBe hgood using fun ch => h ch k (by omega) (hkc ch)
  have hBm : MeasurableSet (⋃ ch, st ch ⁻¹' B ch) := MeasurableSet.iUnion fun ch => (hst ch).measurable (hB ch)
  generalize hcol : (fun ch => (∑ j ∈ Finset.Ico (J ch) k, μ.real {s | ∃ F, ∀ fuel, F ≤ fuel → ∃ out,
          ∃ rows : List (Fin (nS flags) → ℝ),
          runSimulation U G L fuel (newObj (sp ch) { opts with nsimu := k } extra (ms ch) data) s false = .ok out ∧
          out.results.chain = rows.map finVec ∧
          ∃ w : Fin (nS flags) → ℝ,
            ∑ i, ∑ l, w i * sampleCov (rows.take (j - K ch)) i l * w l < c * ∑ i, w i ^ 2}) / (k : ℝ)) = col
  have hcol' := fun ch => congrFun hcol ch
  simp only [hcol'] at hBe ⊢
  have hcol0 : ∀ ch, 0 ≤ col ch := fun ch => by
    rw [← hcol]
    exact div_nonneg (Finset.sum_nonneg fun j _ => measureReal_nonneg) (Nat.cast_nonneg k)
  have hPB : P.real (⋃ ch, st ch ⁻¹' B ch) ≤ e + (∑ ch, A ch) * ∑ ch, col ch := by
    calc _ ≤ ∑ ch, P.real (st ch ⁻¹' B ch) := measureReal_iUnion_fintype_le _
      _ = ∑ ch, μ.real (B ch) := Finset.sum_congr rfl fun ch _ => by
          unfold Measure.real
          rw [(hst ch).measure_preimage (hB ch).nullMeasurableSet]
      _ ≤ ∑ ch : Fin M, (e / M + (∑ ch, A ch) * col ch) := Finset.sum_le_sum fun ch _ => (hBe ch).trans (by
          gcongr
          · exact hcol0 ch
          · exact Finset.single_le_sum (f := A) (fun ch _ => hA ch) (Finset.mem_univ ch))
      _ = _ := by
          rw [Finset.sum_add_distrib, ← Finset.mul_sum]
          simp; field_simp
  have hall : ∀ᵐ ω ∂P, ∀ ch, st ch ω ∉ B ch → _ := ae_all_iff.2 fun ch =>
    (hst ch).quasiMeasurePreserving.ae (hgood ch)
  refine (sub_le_sub_left hPB 1).trans ?_
  rw [← probReal_compl_eq_one_sub hBm]
  refine ENNReal.toReal_mono (measure_ne_top _ _) (measure_mono_ae ?_)
  filter_upwards [hall] with ω hs hω
  have hω' : ∀ ch, st ch ω ∉ B ch := fun ch hc => hω (Set.mem_iUnion.2 ⟨ch, hc⟩)
  choose F hF using fun ch => hs ch (hω' ch)
  refine ⟨∑ ch, F ch, fun fuel hfuel => ?_⟩
  choose out t ho hch ht using fun ch => hF ch fuel
    ((Finset.single_le_sum (f := F) (fun _ _ => Nat.zero_le _) (Finset.mem_univ ch)).trans hfuel)
  obtain ⟨rs, hrs, hlen, hcl⟩ := gelmanRubin_columns hM (k := k) (by omega) (fun ch j => t ch j)
    (chains := List.ofFn fun ch => (out ch).results.chain) (by simp only [hch])
  refine ⟨out, rs, ho, hrs, hlen, fun i => ?_⟩
  obtain ⟨a, ha, hpa⟩ := hcl i
  obtain ⟨a', R, W, V, hpa', hR, hW, hV, h1, h2, h3⟩ := hd i k (hki _) (fun j ch => t ch j i) fun ch => by
    have := ht ch i
    rw [hpost] at this
    rw [avg_range fun j => t ch j i, avg_range fun j => t ch j i ^ 2]
    exact ⟨this.1.trans_le (hδd _), this.2.trans_le (hδd _)⟩
  obtain rfl : a = a' := Except.ok.inj (hpa.symm.trans hpa')
  exact ⟨a, R, W, V, ha, hR, hW, hV, h1, h2, h3⟩

end joint

/-! ### Examples -/

/-- the problem of C99 with any start within the limits -/
theorem XRun.adaptiveAt {x : Fin (nS XRun.flags) → ℝ} (hx : InLimits XRun.flags (XRun.specs true) (finVec x))
    (k : ℤ) (hk : 1 < k) :
    AdaptiveProblem (m := 1) XRun.user (coinRng (nS XRun.flags)) choleskyLapack
    (XRun.specsAt x) (defineSimulationOptions { nsimu := k, method := .dram })
    (XRun.extra 1 1) XRun.settings XRun.data (fun θ _ => θ ⟨0, by decide⟩ * θ ⟨0, by decide⟩) (fun _ => 0)
    (fun _ => 1) where
  exact := {
    lapack := choleskyLapack_ok
    draws := fun _ => ⟨_, rfl⟩
    adjust := ⟨1, rfl⟩
    burnin := ⟨10, rfl, by norm_num⟩
    drscale := ⟨[5], rfl, by simp⟩
    noRam := rfl
    weight := .inl rfl
    scale := ⟨_, .inl ⟨rfl, rfl⟩⟩
    RDR := nofun }
  valid := {
    nsimu := hk
    sampled := by decide
    initial := fun _ => ⟨_, rfl⟩
    limits := ((XRun.fixedProblem k hk).valid x hx).limits
    localFit := .inl rfl
    sos := fun v => by simp [XRun.user]
    data := show XRun.data.n ≠ [] by decide
    settings := ⟨fun v hv => by cases hv; exact .inl rfl, nofun, nofun, .inr (.inl rfl),
      .inl (show XRun.data.n.length ≤ 1 by decide)⟩
    settingsFresh := rfl
    observations := rfl
    covariance := .inl ⟨fun _ => 1, rfl, fun _ => one_pos⟩
    drscale := by change [XR.fin 5] ≠ []; simp
    factors := nofun
    delayed := fun _ => ⟨.inr rfl, rfl, fun _ => ⟨show (0 : ℤ) ≤ 100 by decide, by
      change [XR.fin 5] ≠ []; simp⟩⟩
    noRestart := rfl }
  names := (XRun.adaptiveProblem k hk).names
  triangular := choleskyLapack_factor _
  noBurnin := fun _ => show (0 : ℤ) ≤ 100 by decide
  noWeight := rfl
  noSampling := ⟨rfl, rfl⟩
  noFactors := rfl
  sosDim := one_pos
  sos θ ss hs := by
    obtain ⟨v, hv, hs⟩ := hs
    exact (XRun.fixedProblem k hk).sos θ ss ⟨v, ⟨hv.1, fun k hk => by cases hk⟩, hs⟩
  prior _ _ _ _ := rfl
  variances := ⟨.inr (.inl ⟨1, rfl, fun _ => rfl⟩), fun _ => one_pos⟩
  measurable := ⟨by fun_prop, measurable_const⟩

/-- the problem of C131 with any start within the limits -/
theorem XRun.adaptiveJointAt {x : Fin (nS XRun.flags) → ℝ} (hx : InLimits XRun.flags (XRun.specs true) (finVec x))
    (k : ℤ) (hk : 1 < k) :
    AdaptiveJointProblem (m := 1) XRun.user (coinRng (nS XRun.flags)) choleskyLapack
    (XRun.specsAt x) (defineSimulationOptions { nsimu := k, method := .dram, updatesigma := true })
    (XRun.extra 1 1) (XRun.settingsAt fun _ => 2) XRun.data
    (fun θ _ => θ ⟨0, by decide⟩ * θ ⟨0, by decide⟩) (fun _ => 0) (fun _ => 5) (fun _ => 1) (fun _ => 1)
    (fun _ => 2) where
  exact := {
    lapack := choleskyLapack_ok
    draws := fun _ => ⟨_, rfl⟩
    adjust := ⟨1, rfl⟩
    burnin := ⟨10, rfl, by norm_num⟩
    drscale := ⟨[5], rfl, by simp⟩
    noRam := rfl
    weight := .inl rfl
    scale := ⟨_, .inl ⟨rfl, rfl⟩⟩
    RDR := nofun }
  valid := {
    nsimu := hk
    sampled := by decide
    initial := fun _ => ⟨_, rfl⟩
    limits := ((XRun.fixedProblem k hk).valid x hx).limits
    localFit := .inl rfl
    sos := fun v => by simp [XRun.user]
    data := show XRun.data.n ≠ [] by decide
    settings := ⟨fun v hv => by cases hv; exact .inl rfl, fun v hv => by cases hv; exact .inl rfl, nofun,
      .inr (.inl rfl), .inl (show XRun.data.n.length ≤ 1 by decide)⟩
    settingsFresh := rfl
    observations := rfl
    covariance := .inl ⟨fun _ => 1, rfl, fun _ => one_pos⟩
    drscale := by change [XR.fin 5] ≠ []; simp
    factors := nofun
    delayed := fun _ => ⟨.inr rfl, rfl, fun _ => ⟨show (0 : ℤ) ≤ 100 by decide, by
      change [XR.fin 5] ≠ []; simp⟩⟩
    noRestart := rfl }
  triangular := choleskyLapack_factor _
  noBurnin := fun _ => show (0 : ℤ) ≤ 100 by decide
  noWeight := rfl
  noFactors := rfl
  sosDim := one_pos
  sos := (XRun.adaptiveAt hx k hk).sos
  prior _ _ _ _ := rfl
  settings := (XRun.adaptiveJointProblem k hk).settings
  positive _ := by norm_num
  shapes _ := by norm_num
  rates θ _ _ := by have := mul_self_nonneg (θ ⟨0, by decide⟩); linarith
  measurable := ⟨by fun_prop, measurable_const⟩

/-- C141 for the posterior `exp(-θ²/2)` on `[-10, 10]` and the default method: mean and standard deviation up to
`1/10`. -/
example : ∃ A : ℝ, 0 ≤ A ∧ ∃ K J k₀ : ℕ, K ≤ J ∧ ∀ k : ℕ, k₀ ≤ k →
    1 - (1 / 100 + A * ((∑ j ∈ Finset.Ico J k, (coinLaw (nS XRun.flags)).real
        {s | ∃ out, ∃ rows : List (Fin (nS XRun.flags) → ℝ),
          runSimulation XRun.user (coinRng (nS XRun.flags)) choleskyLapack 0
            (newObj (m := 1) (XRun.specs true) (defineSimulationOptions { nsimu := k, method := .dram })
              (XRun.extra 1 1) XRun.settings XRun.data) s false = .ok out ∧
          out.results.chain = rows.map finVec ∧
          ∃ w : Fin (nS XRun.flags) → ℝ, ∑ i, ∑ l, w i * sampleCov (rows.take (j - K)) i l * w l <
            1 / 10 * ∑ i, w i ^ 2}) / k)) ≤
      (coinLaw (nS XRun.flags)).real {s | ∃ out S,
        runSimulation XRun.user (coinRng (nS XRun.flags)) choleskyLapack 0
          (newObj (m := 1) (XRun.specs true) (defineSimulationOptions { nsimu := k, method := .dram })
            (XRun.extra 1 1) XRun.settings XRun.data) s false = .ok out ∧
        chainstats (K := ℚ) (fun _ _ => .fin 1) id (fun _ => .ok (.fin 1, 0)) (some out.results.chain) = .ok (some S) ∧
        ∀ i, ∃ mean std, S.mean i = .fin mean ∧ S.std i = .fin std ∧
          |mean - meanUnder (posteriorMeasure (m := 1) XRun.flags (XRun.specs true)
            (fun θ _ => θ ⟨0, by decide⟩ * θ ⟨0, by decide⟩) (fun _ => 0) (fun _ => 1)) fun θ => θ i| < 1 / 10 ∧
          |std - Real.sqrt (varUnder (posteriorMeasure (m := 1) XRun.flags (XRun.specs true)
            (fun θ _ => θ ⟨0, by decide⟩ * θ ⟨0, by decide⟩) (fun _ => 0) (fun _ => 1)) fun θ => θ i)| < 1 / 10} := by
  obtain ⟨A, hA, h⟩ := C141_adaptive_chainstats
    (opts := defineSimulationOptions { nsimu := 2, method := .dram }) XRun.adaptiveProblem (coinIdeal _)
    XRun.finiteLimits (Z := 1) XRun.density_le (show (2 : ℤ) ≤ 2 by decide) (show (0 : ℤ) < 100 by decide)
    (fun _ _ => rfl) (η := 1 / 10) (by norm_num) (fun _ _ => .fin 1) id (iact := fun _ => .ok (.fin 1, 0))
    fun _ _ => ⟨_, rfl⟩
  obtain ⟨K, J, k₀, h0, h⟩ := h (1 / 100) (1 / 10) (by norm_num) (by norm_num)
  exact ⟨A, hA, K, J, k₀, h0, fun k hk => h k hk 0⟩

/-- C142 for that posterior and method: three chains started at -3, 0 and 3, here even with the same random numbers. -/
example : ∃ A : ℝ, 0 ≤ A ∧ ∃ K J : Fin 3 → ℕ, ∃ k₀ : ℕ, (∀ ch, K ch ≤ J ch) ∧ ∀ k : ℕ, k₀ ≤ k →
    1 - (1 / 100 + A * ∑ ch : Fin 3, (∑ j ∈ Finset.Ico (J ch) k, (coinLaw (nS XRun.flags)).real
        {s | ∃ out, ∃ rows : List (Fin (nS XRun.flags) → ℝ),
          runSimulation XRun.user (coinRng (nS XRun.flags)) choleskyLapack 0
            (newObj (m := 1) (XRun.specsAt fun _ => 3 * (((ch : ℕ) : ℝ) - 1))
              (defineSimulationOptions { nsimu := k, method := .dram })
              (XRun.extra 1 1) XRun.settings XRun.data) s false = .ok out ∧
          out.results.chain = rows.map finVec ∧
          ∃ w : Fin (nS XRun.flags) → ℝ, ∑ i, ∑ l, w i * sampleCov (rows.take (j - K ch)) i l * w l <
            1 / 10 * ∑ i, w i ^ 2}) / k) ≤
      (coinLaw (nS XRun.flags)).real {s | ∃ out : Fin 3 → RunOut XR _ XRun.flags 1, ∃ rs,
        (∀ ch : Fin 3, runSimulation XRun.user (coinRng (nS XRun.flags)) choleskyLapack 0
          (newObj (m := 1) (XRun.specsAt fun _ => 3 * (((ch : ℕ) : ℝ) - 1))
            (defineSimulationOptions { nsimu := k, method := .dram })
            (XRun.extra 1 1) XRun.settings XRun.data) s false = .ok (out ch)) ∧
        gelmanRubin (List.ofFn fun ch => (out ch).results.chain) = .ok rs ∧
        ∃ e R, rs[0]? = some e ∧ e.R = .fin R ∧ |R - 1| < 1 / 10} := by
  have hx : ∀ ch : Fin 3, InLimits XRun.flags (XRun.specs true) (finVec fun _ => 3 * (((ch : ℕ) : ℝ) - 1)) := by
    intro ch i k _
    simp only [XRun.specs, finVec]
    fin_cases ch <;> simp <;> norm_num
  obtain ⟨A, hA, h⟩ := C142_adaptive_gelman_rubin (M := 3) (by norm_num) (specs := XRun.specs true)
    (sp := fun ch => XRun.specsAt fun _ => 3 * (((ch : ℕ) : ℝ) - 1)) (fun _ _ => Iff.rfl)
    (opts := defineSimulationOptions { nsimu := 2, method := .dram }) (fun ch => XRun.adaptiveAt (hx ch))
    (coinIdeal _) (fun _ => XRun.finiteLimits) (Z := 1) XRun.density_le (show (2 : ℤ) ≤ 2 by decide)
    (show (0 : ℤ) < 100 by decide) (fun _ _ _ => rfl) (P := coinLaw (nS XRun.flags)) (st := fun _ => id)
    (fun _ => MeasurePreserving.id _) (η := 1 / 10) (by norm_num)
  obtain ⟨K, J, k₀, h0, h⟩ := h (1 / 100) (1 / 10) (by norm_num) (by norm_num)
  refine ⟨A, hA, K, J, k₀, h0, fun k hk => (h k hk 0).trans (measureReal_mono fun s hs => ?_)⟩
  obtain ⟨out, rs, ho, hrs, -, hi⟩ := hs
  obtain ⟨e, R, W, V, h1, h2, -, -, h3, -⟩ := hi ⟨0, by decide⟩
  exact ⟨out, rs, ho, hrs, e, R, h1, h2, h3⟩

/-- C141 with a sampled error variance. -/
example : ∃ A : ℝ, 0 ≤ A ∧ ∃ K J k₀ : ℕ, K ≤ J ∧ ∀ k : ℕ, k₀ ≤ k →
    1 - (1 / 100 + A * ((∑ j ∈ Finset.Ico J k, (coinLaw (nS XRun.flags)).real
        {s | ∃ F, ∀ fuel, F ≤ fuel → ∃ out, ∃ rows : List (Fin (nS XRun.flags) → ℝ),
          runSimulation XRun.user (coinRng (nS XRun.flags)) choleskyLapack fuel
            (newObj (m := 1) (XRun.specs true)
              (defineSimulationOptions { nsimu := k, method := .dram, updatesigma := true })
              (XRun.extra 1 1) (XRun.settingsAt fun _ => 2) XRun.data) s false = .ok out ∧
          out.results.chain = rows.map finVec ∧
          ∃ w : Fin (nS XRun.flags) → ℝ, ∑ i, ∑ l, w i * sampleCov (rows.take (j - K)) i l * w l <
            1 / 10 * ∑ i, w i ^ 2}) / k)) ≤
      (coinLaw (nS XRun.flags)).real {s | ∃ F, ∀ fuel, F ≤ fuel → ∃ out S,
        runSimulation XRun.user (coinRng (nS XRun.flags)) choleskyLapack fuel
          (newObj (m := 1) (XRun.specs true)
            (defineSimulationOptions { nsimu := k, method := .dram, updatesigma := true })
            (XRun.extra 1 1) (XRun.settingsAt fun _ => 2) XRun.data) s false = .ok out ∧
        chainstats (K := ℚ) (fun _ _ => .fin 1) id (fun _ => .ok (.fin 1, 0)) (some out.results.chain) = .ok (some S) ∧
        ∀ i, ∃ mean std, S.mean i = .fin mean ∧ S.std i = .fin std ∧
          |mean - meanUnder (jointPosterior (m := 1) XRun.flags (XRun.specs true)
            (fun θ _ => θ ⟨0, by decide⟩ * θ ⟨0, by decide⟩) (fun _ => 0) (fun _ => 5) (fun _ => 1) (fun _ => 1))
            fun p => p.1 i| < 1 / 10 ∧
          |std - Real.sqrt (varUnder (jointPosterior (m := 1) XRun.flags (XRun.specs true)
            (fun θ _ => θ ⟨0, by decide⟩ * θ ⟨0, by decide⟩) (fun _ => 0) (fun _ => 5) (fun _ => 1) (fun _ => 1))
            fun p => p.1 i)| < 1 / 10} := by
  have D1 : IdealRng (coinRng (nS XRun.flags)) 1 (coinLaw (nS XRun.flags)) := by
    rw [XRun.nS_flags]; exact coinIdeal 1
  obtain ⟨A, hA, h⟩ := C141_adaptive_chainstats_joint
    (opts := defineSimulationOptions { nsimu := 2, method := .dram, updatesigma := true }) XRun.adaptiveJointProblem
    (coinIdeal _) D1 XRun.finiteLimits XRun.boundedProblem (show (2 : ℤ) ≤ 2 by decide)
    (show (0 : ℤ) < 100 by decide) (fun _ _ => rfl) (η := 1 / 10) (by norm_num) (fun _ _ => .fin 1) id
    (iact := fun _ => .ok (.fin 1, 0)) fun _ _ => ⟨_, rfl⟩
  obtain ⟨K, J, k₀, h0, h⟩ := h (1 / 100) (1 / 10) (by norm_num) (by norm_num)
  exact ⟨A, hA, K, J, k₀, h0, h⟩

/-- C142 with a sampled error variance: two chains started at -3 and 3. -/
example : ∃ A : ℝ, 0 ≤ A ∧ ∃ K J : Fin 2 → ℕ, ∃ k₀ : ℕ, (∀ ch, K ch ≤ J ch) ∧ ∀ k : ℕ, k₀ ≤ k →
    1 - (1 / 100 + A * ∑ ch : Fin 2, (∑ j ∈ Finset.Ico (J ch) k, (coinLaw (nS XRun.flags)).real
        {s | ∃ F, ∀ fuel, F ≤ fuel → ∃ out, ∃ rows : List (Fin (nS XRun.flags) → ℝ),
          runSimulation XRun.user (coinRng (nS XRun.flags)) choleskyLapack fuel
            (newObj (m := 1) (XRun.specsAt fun _ => 6 * ((ch : ℕ) : ℝ) - 3)
              (defineSimulationOptions { nsimu := k, method := .dram, updatesigma := true })
              (XRun.extra 1 1) (XRun.settingsAt fun _ => 2) XRun.data) s false = .ok out ∧
          out.results.chain = rows.map finVec ∧
          ∃ w : Fin (nS XRun.flags) → ℝ, ∑ i, ∑ l, w i * sampleCov (rows.take (j - K ch)) i l * w l <
            1 / 10 * ∑ i, w i ^ 2}) / k) ≤
      (coinLaw (nS XRun.flags)).real {s | ∃ F, ∀ fuel, F ≤ fuel → ∃ out : Fin 2 → RunOut XR _ XRun.flags 1, ∃ rs,
        (∀ ch : Fin 2, runSimulation XRun.user (coinRng (nS XRun.flags)) choleskyLapack fuel
          (newObj (m := 1) (XRun.specsAt fun _ => 6 * ((ch : ℕ) : ℝ) - 3)
            (defineSimulationOptions { nsimu := k, method := .dram, updatesigma := true })
            (XRun.extra 1 1) (XRun.settingsAt fun _ => 2) XRun.data) s false = .ok (out ch)) ∧
        gelmanRubin (List.ofFn fun ch => (out ch).results.chain) = .ok rs ∧
        ∃ e R, rs[0]? = some e ∧ e.R = .fin R ∧ |R - 1| < 1 / 10} := by
  have D1 : IdealRng (coinRng (nS XRun.flags)) 1 (coinLaw (nS XRun.flags)) := by
    rw [XRun.nS_flags]; exact coinIdeal 1
  have hx : ∀ ch : Fin 2, InLimits XRun.flags (XRun.specs true) (finVec fun _ => 6 * ((ch : ℕ) : ℝ) - 3) := by
    intro ch i k _
    simp only [XRun.specs, finVec]
    fin_cases ch <;> simp <;> norm_num
  obtain ⟨A, hA, h⟩ := C142_adaptive_gelman_rubin_joint (M := 2) le_rfl (specs := XRun.specs true)
    (sp := fun ch => XRun.specsAt fun _ => 6 * ((ch : ℕ) : ℝ) - 3) (fun _ _ => Iff.rfl)
    (opts := defineSimulationOptions { nsimu := 2, method := .dram, updatesigma := true })
    (fun ch => XRun.adaptiveJointAt (hx ch))
    (coinIdeal _) D1 (fun _ => XRun.finiteLimits) XRun.boundedProblem (show (2 : ℤ) ≤ 2 by decide)
    (show (0 : ℤ) < 100 by decide) (fun _ _ _ => rfl) (P := coinLaw (nS XRun.flags)) (st := fun _ => id)
    (fun _ => MeasurePreserving.id _) (η := 1 / 10) (by norm_num)
  obtain ⟨K, J, k₀, h0, h⟩ := h (1 / 100) (1 / 10) (by norm_num) (by norm_num)
  refine ⟨A, hA, K, J, k₀, h0, fun k hk => (h k hk).trans (measureReal_mono fun s hs => ?_)⟩
  obtain ⟨F, hs⟩ := hs
  refine ⟨F, fun fuel hf => ?_⟩
  obtain ⟨out, rs, ho, hrs, -, hi⟩ := hs fuel hf
  obtain ⟨e, R, W, V, h1, h2, -, -, h3, -⟩ := hi ⟨0, by decide⟩
  exact ⟨out, rs, ho, hrs, e, R, h1, h2, h3⟩

end Verif
