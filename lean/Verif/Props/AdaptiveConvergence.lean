import Verif.Lemmas.WeakAverage
import Verif.Props.AdaptiveChain
import Verif.Props.Convergence

/-! # C133, C134: adaptive runs converge to the posterior unless their covariance collapses -/

set_option linter.unusedSectionVars false

namespace Verif
open XR MeasureTheory Function ProbabilityTheory
open scoped ENNReal

variable {σ : Type} [MeasurableSpace σ] {μ : Measure σ} {G : Rng σ XR} {N m : ℕ} {flags : Fin N → Bool}

theorem quad_sum {n : ℕ} (rows : List (Fin n → ℝ)) (w : Fin n → ℝ) :
    w ⬝ᵥ (Matrix.mulVec (sampleCovM rows) w) = ∑ i, ∑ j, w i * sampleCov rows i j * w j := by
  simp only [dotProduct, Matrix.mulVec, Finset.mul_sum, sampleCovM, Matrix.of_apply, mul_assoc]

/-- the rows of an adaptive run with all sampled parameters adapted are those of the process -/
theorem adaptive_process {U : UserFuns XR N (nS flags) m} {L : Lapack XR}
    {specs : Fin N → ParamSpec XR} {opts : SimOpts XR}
    {extra : ExtraOpts XR (nS flags)} {ms : ModelSettings XR} {data : Data}
    {q : (Fin (nS flags) → ℝ) → Fin m → ℝ} {r : (Fin (nS flags) → ℝ) → ℝ} {v : Fin m → ℝ}
    (H : AdaptiveProblem U G L specs opts extra ms data q r v) (D : IdealRng G (nS flags) μ)
    (hall : ∀ k, flags k = true → (specs k).adapt = true)
    {ds : List ℝ} (hds : extra.drscale = ds.map .fin) (hds0 : ∀ d ∈ ds, d ≠ 0)
    {ε sc : ℝ} (hε : extra.qcovAdjust = .fin ε) (hsc : IsScale opts.adascale (nS flags) sc)
    {x : Fin (nS flags) → ℝ} (hx : ∀ i, (specs (parindOf flags i)).theta0 = .fin (x i)) (s0 : σ) :
    ∃ (R0 : Fin (nS flags) → Fin (nS flags) → ℝ) (Q : Matrix (Fin (nS flags)) (Fin (nS flags)) ℝ),
      ∀ s fuel, ∃ out, ∃ rows : List (Fin (nS flags) → ℝ), runSimulation U G L fuel (newObj specs opts extra ms data) s false = .ok out ∧
        out.results.chain = rows.map finVec ∧ (rows.length : ℤ) = opts.nsimu ∧
        ∀ j : ℕ, (j : ℤ) < opts.nsimu → ∀ i ≤ j, rows[i]? =
          some ((histAfter (factorMove D (logPost flags specs q r v) ds opts.ntry)
            (nextFactor H.triangular opts.adaptint (fun _ => false) Q ε sc) x R0 j s).1 i).1 := by
  obtain ⟨I0, st0, t0, Q, hset0, ht0, hQ0, hpd⟩ := valid_setup H.exact H.valid s0
  obtain ⟨R0, hR0, hu0⟩ := (start_fin (fuel := 0) H.exact hset0 nofun H.valid.delayed ht0 hQ0 hpd).2.cov.R
  rw [(setup_start hset0).1.cov] at hR0
  have hno : noAdaptOf flags specs = fun _ => false := by
    funext i
    simp [noAdaptOf, hall _ (flags_parindOf i)]
  refine ⟨fun a b => R0 a b, Q, fun s fuel => ?_⟩
  obtain ⟨I, st, t, Q', hset, ht, hQ, hpd'⟩ := valid_setup H.exact H.valid s
  rcases C65_exact_run_returns (fuel := fuel) H.exact hset H.valid.nsimu H.valid.sampled H.valid.sos
    H.valid.delayed H.valid.data ht hQ hpd' with ⟨out, hrun, hfin, hadapt⟩ | ⟨_, h2, _⟩
  · have hcov : out.init.cov = I0.cov := by
      obtain ⟨o1, I1, s1, hst, rfl, _, hset1, _⟩ := run_cov hrun
      exact init_cov_const H.valid.noRestart hset1 hset0
    have hrows : ∃ rows : List (Fin (nS flags) → ℝ), out.results.chain = rows.map finVec := by
      generalize out.results.chain = l at hfin
      clear * - hfin
      induction l with
      | nil => exact ⟨[], rfl⟩
      | cons a l ih =>
        obtain ⟨b, rfl⟩ := hfin a (by simp)
        obtain ⟨rows, rfl⟩ := ih fun row hr => hfin row (by simp [hr])
        exact ⟨b :: rows, rfl⟩
    obtain ⟨rows, hrows⟩ := hrows
    have key := adaptive_rows H D hds hds0 hε hsc hx hrun (by rw [hcov]; exact hR0) hu0
      (by rw [hcov]; exact hQ0) hpd hrows hadapt
    rw [hno] at key
    refine ⟨out, rows, hrun, hrows, ?_, fun j hj i hi => ?_⟩
    · have := (C02_chain_records_moves H.valid.noRestart hrun).1
      rw [hrows, List.length_map] at this
      exact this
    · have := (key j hj _ rfl).1 i hi
      rw [hrows, List.getElem?_map] at this
      obtain ⟨z, hz, hz'⟩ := Option.map_eq_some_iff.1 this
      rw [hz, finVec_injective hz']
  · rw [(setup_start hset).1.init.opts] at h2
    simp only [checkDependentSimulationOptions, H.noSampling.1, H.noSampling.2, newObj] at h2
    simp at h2

/-- what the two theorems need: the rows of the runs of every length are those of one process, which starts within
the limits -/
theorem adaptive_facts [IsProbabilityMeasure μ] {U : UserFuns XR N (nS flags) m} {L : Lapack XR}
    {specs : Fin N → ParamSpec XR} {opts : SimOpts XR}
    {extra : ExtraOpts XR (nS flags)} {ms : ModelSettings XR} {data : Data}
    {q : (Fin (nS flags) → ℝ) → Fin m → ℝ} {r : (Fin (nS flags) → ℝ) → ℝ} {v : Fin m → ℝ}
    (H : ∀ k : ℤ, 1 < k → AdaptiveProblem U G L specs { opts with nsimu := k } extra ms data q r v)
    (D : IdealRng G (nS flags) μ) (hall : ∀ k, flags k = true → (specs k).adapt = true) :
    ∃ (hL : TriangularFactor L (nS flags)) (ds : List ℝ) (ε sc : ℝ) (x : Fin (nS flags) → ℝ), (∀ d ∈ ds, d ≠ 0) ∧ 0 < sc ∧
      InLimits flags specs (finVec x) ∧
      ∀ k : ℤ, 1 < k → ∃ (R0 : Fin (nS flags) → Fin (nS flags) → ℝ) (Q : Matrix (Fin (nS flags)) (Fin (nS flags)) ℝ),
        ∀ s fuel, ∃ out, ∃ rows : List (Fin (nS flags) → ℝ),
        runSimulation U G L fuel (newObj specs { opts with nsimu := k } extra ms data) s false = .ok out ∧
        out.results.chain = rows.map finVec ∧ (rows.length : ℤ) = k ∧
        ∀ j : ℕ, (j : ℤ) < k → ∀ i ≤ j, rows[i]? =
          some ((histAfter (factorMove D (logPost flags specs q r v) ds opts.ntry)
            (nextFactor hL opts.adaptint (fun _ => false) Q ε sc) x R0 j s).1 i).1 := by
  obtain ⟨s0⟩ := nonempty_of_isProbabilityMeasure μ
  have H2 := H 2 (by norm_num)
  obtain ⟨ds, hds, hds0⟩ := H2.exact.drscale
  have hds : extra.drscale = ds.map .fin := hds
  obtain ⟨ε, hε⟩ := H2.exact.adjust
  have hε : extra.qcovAdjust = .fin ε := hε
  obtain ⟨sc, hsc⟩ := H2.exact.scale
  have hsc : IsScale opts.adascale (nS flags) sc := hsc
  have hn : 0 < nS flags := H2.valid.sampled
  have hsc0 : 0 < sc := by
    rcases hsc with ⟨-, rfl⟩ | ⟨-, h⟩
    · have : (0 : ℝ) < √(nS flags) := Real.sqrt_pos.2 (by exact_mod_cast hn)
      positivity
    · exact h
  have hx : ∃ x : Fin (nS flags) → ℝ, ∀ i, (specs (parindOf flags i)).theta0 = .fin (x i) := by
    have := fun i => H2.valid.initial (parindOf flags i)
    choose x hx using this
    exact ⟨x, hx⟩
  obtain ⟨x, hx⟩ := hx
  have hx0 : InLimits flags specs (finVec x) := by
    obtain ⟨R0, Q, h⟩ := adaptive_process H2 D hall hds hds0 hε hsc hx s0
    obtain ⟨out, rows, h1, h2, h3, h4⟩ := h s0 0
    refine C01_rows_within_limits .start h1 _ (List.mem_of_getElem? (i := 0) ?_)
    rw [h2, List.getElem?_map, h4 0 (by change (0 : ℤ) < 2; norm_num) 0 le_rfl]
    rfl
  exact ⟨H2.triangular, ds, ε, sc, x, hds0, hsc0, hx0, fun k hk =>
    adaptive_process (H k hk) D hall hds hds0 hε hsc hx s0⟩

/-- the sample covariance of the first rows of a run, from the process -/
theorem take_histCov {n : ℕ} {rows : List (Fin n → ℝ)} {h : ℕ → (Fin n → ℝ) × (Fin n → Fin n → ℝ)} {l : ℕ}
    (hp : ∀ i < l, rows[i]? = some (h i).1) : sampleCovM (rows.take l) = histCov l h := by
  unfold histCov
  congr 1
  apply List.ext_getElem?
  intro i
  rw [List.getElem?_take, List.getElem?_map]
  by_cases hi : i < l
  · rw [if_pos hi, List.getElem?_range hi, hp i hi]
    rfl
  · rw [if_neg hi, List.getElem?_eq_none (by simpa using hi)]
    rfl

/-- the event that the sample covariance of the first `l` rows of a run has collapsed, from the process -/
theorem collapse_set {U : UserFuns XR N (nS flags) m} {L : Lapack XR} {specs : Fin N → ParamSpec XR} {opts : SimOpts XR}
    {extra : ExtraOpts XR (nS flags)} {ms : ModelSettings XR} {data : Data} {fuel : ℕ} {k : ℤ}
    {Hs : ℕ → σ → (ℕ → (Fin (nS flags) → ℝ) × (Fin (nS flags) → Fin (nS flags) → ℝ)) × σ}
    (h : ∀ s, ∃ out, ∃ rows : List (Fin (nS flags) → ℝ),
      runSimulation U G L fuel (newObj specs opts extra ms data) s false = .ok out ∧
      out.results.chain = rows.map finVec ∧ (rows.length : ℤ) = k ∧
      ∀ j : ℕ, (j : ℤ) < k → ∀ i ≤ j, rows[i]? = some ((Hs j s).1 i).1) {l : ℕ} (hl : (l : ℤ) < k) (c : ℝ) :
    {s | ∃ out, ∃ rows : List (Fin (nS flags) → ℝ),
      runSimulation U G L fuel (newObj specs opts extra ms data) s false = .ok out ∧
      out.results.chain = rows.map finVec ∧
      ∃ w : Fin (nS flags) → ℝ, ∑ i, ∑ j, w i * sampleCov (rows.take l) i j * w j < c * ∑ i, w i ^ 2} =
    {s | ¬ ∀ w, c * ∑ i, w i ^ 2 ≤ w ⬝ᵥ (Matrix.mulVec (histCov l (Hs l s).1) w)} := by
  ext s
  obtain ⟨out, rows, ho, hr, -, hp⟩ := h s
  have htake : sampleCovM (rows.take l) = histCov l (Hs l s).1 := take_histCov fun i hi => hp l hl i hi.le
  simp only [Set.mem_ofPred_eq, not_forall, not_le, ← htake, quad_sum]
  constructor
  · rintro ⟨out', rows', ho', hr', hw⟩
    rw [ho] at ho'
    cases ho'
    rw [hr] at hr'
    rw [List.map_injective_iff.2 finVec_injective hr']
    exact hw
  · exact fun hw => ⟨out, rows, ho, hr, hw⟩

theorem logPost_some {specs : Fin N → ParamSpec XR} {q : (Fin (nS flags) → ℝ) → Fin m → ℝ}
    {r : (Fin (nS flags) → ℝ) → ℝ} {v : Fin m → ℝ} (θ : Fin (nS flags) → ℝ) :
    logPost flags specs q r v θ ≠ none ↔ InLimits flags specs (finVec θ) := by
  unfold logPost
  by_cases h : InLimits flags specs (finVec θ)
  · simp [h]
  · simp [h]

/-- **C133** adaptive runs converge to the posterior unless their covariance collapses.  Methods `am` and `dram` with
at most two stages (the default), an adaptation interval, all sampled parameters adapted, finite limits and a bounded posterior: for all
`e, c > 0` there are `K` and `J` such that in runs of every length, for every row `j ≥ J` and uniformly
over all events, the law of row `j` differs from the posterior by at most `e` plus the probability
that the sample covariance of the first `j - K` rows is in some direction below `c`.  -/
theorem C133_adaptive_convergence [IsProbabilityMeasure μ] {U : UserFuns XR N (nS flags) m} {L : Lapack XR}
    {specs : Fin N → ParamSpec XR} {opts : SimOpts XR}
    {extra : ExtraOpts XR (nS flags)} {ms : ModelSettings XR} {data : Data}
    {q : (Fin (nS flags) → ℝ) → Fin m → ℝ} {r : (Fin (nS flags) → ℝ) → ℝ} {v : Fin m → ℝ}
    (H : ∀ k : ℤ, 1 < k → AdaptiveProblem U G L specs { opts with nsimu := k } extra ms data q r v)
    (D : IdealRng G (nS flags) μ) (hlim : FiniteLimits flags specs)
    {M : ℝ} (hM : ∀ θ, posteriorDensity flags specs q r v θ ≤ M)
    (hntry : opts.ntry ≤ 2) (hai : 0 < opts.adaptint) (hall : ∀ k, flags k = true → (specs k).adapt = true)
    {e c : ℝ} (he : 0 < e) (hc : 0 < c) :
    ∃ K J : ℕ, K < J ∧ ∀ k : ℤ, 1 < k → ∀ (fuel j : ℕ), J ≤ j → (j : ℤ) < k →
      ∀ B : Set (Fin (nS flags) → ℝ), MeasurableSet B →
        |μ.real {s | ∃ out t, runSimulation U G L fuel (newObj specs { opts with nsimu := k } extra ms data) s false
              = .ok out ∧ out.results.chain[j]? = some (finVec t) ∧ t ∈ B} -
          (posteriorMeasure flags specs q r v).real B / (posteriorMeasure flags specs q r v).real Set.univ| ≤
        e + μ.real {s | ∃ out, ∃ rows : List (Fin (nS flags) → ℝ),
          runSimulation U G L fuel (newObj specs { opts with nsimu := k } extra ms data) s false = .ok out ∧
          out.results.chain = rows.map finVec ∧
          ∃ w : Fin (nS flags) → ℝ, ∑ i, ∑ l, w i * sampleCov (rows.take (j - K)) i l * w l < c * ∑ i, w i ^ 2} := by
  have H2 := H 2 (by norm_num)
  obtain ⟨hZ0, hZt, hZS⟩ := posterior_mass (v := v) hlim H2.measurable.1 H2.measurable.2 hM
  have hprob : IsProbabilityMeasure (posteriorLaw flags specs q r v) := ⟨by
    unfold posteriorLaw
    rw [Measure.smul_apply, smul_eq_mul, ENNReal.inv_mul_cancel hZ0 hZt]⟩
  obtain ⟨hL, ds, ε, sc, x, hds0, hsc0, hx0, hproc⟩ := adaptive_facts H D hall
  have hdens : (fun θ => (pointAt (logPost flags specs q r v) θ).density) = posteriorDensity flags specs q r v :=
    funext (logPost_density v)
  have hd : Measurable fun θ => (pointAt (logPost flags specs q r v) θ).density := by
    rw [hdens]; exact measurable_posteriorDensity H2.measurable.1 H2.measurable.2
  obtain ⟨a, b, hab, hbox⟩ := hlim.box
  obtain ⟨K, J, hKJ, hmain⟩ := process_converges D (lp := logPost flags specs q r v) (ds := ds) (ntry := opts.ntry)
    hd hds0 hntry (M := M) (fun y => by rw [congrFun hdens]; exact hM y) (a := a) (b := b)
    (fun y hy i => by
      have : y ∈ Set.Icc a b := by rw [← hbox]; exact (logPost_some y).1 hy
      exact ⟨this.1 i, this.2 i⟩) ⟨x, (logPost_some x).2 hx0⟩
    (π := posteriorLaw flags specs q r v) hZ0 hZt (by rw [posteriorLaw]; simp only [congrFun hdens]; rfl)
    hL hai ε hsc0 he hc
  refine ⟨K, J + 1, by omega, fun k hk fuel j hj hjk B hB => ?_⟩
  obtain ⟨R0, Q, h⟩ := hproc k hk
  have main := hmain Q R0 x ((logPost_some x).2 hx0) j (by omega) B hB
  have e2 : (posteriorLaw flags specs q r v).real B =
      (posteriorMeasure flags specs q r v).real B / (posteriorMeasure flags specs q r v).real Set.univ := by
    unfold posteriorLaw Measure.real
    rw [Measure.smul_apply, smul_eq_mul, ENNReal.toReal_mul, ENNReal.toReal_inv, inv_mul_eq_div]
  set Hs := histAfter (factorMove D (logPost flags specs q r v) ds opts.ntry)
    (nextFactor hL opts.adaptint (fun _ => false) Q ε sc) x R0 with hHs
  have e1 : {s | ∃ out t, runSimulation U G L fuel (newObj specs { opts with nsimu := k } extra ms data) s false
      = .ok out ∧ out.results.chain[j]? = some (finVec t) ∧ t ∈ B} = {s | ((Hs j s).1 j).1 ∈ B} := by
    ext s
    obtain ⟨out, rows, ho, hr, -, hp⟩ := h s fuel
    have hj' : out.results.chain[j]? = some (finVec ((Hs j s).1 j).1) := by
      rw [hr, List.getElem?_map, hp j hjk j le_rfl]; rfl
    constructor
    · rintro ⟨out', t, ho', ht, htB⟩
      rw [ho] at ho'
      cases ho'
      rw [hj'] at ht
      have : ((Hs j s).1 j).1 = t := finVec_injective (Option.some.inj ht)
      rw [Set.mem_ofPred_eq, this]
      exact htB
    · intro hs
      exact ⟨out, _, ho, hj', hs⟩
  rw [e1, collapse_set (fun s => h s fuel) (by omega) c, ← e2]
  exact main

/-- **C134** averages over the rows of adaptive runs approach the posterior mean unless the covariance collapses.
For all `e, c, η, C > 0` there are `K`, `J` and `k₀` such that, for runs of every length `k ≥ k₀` and every
function `f` bounded by `C` within the limits, the average of `f` over the rows is within `η` of
the posterior mean of `f`, except with probability `e` plus `16 C²/η²` times the average over
the rows `j` of the probability that the sample covariance of the first `j - K` rows is in some direction
below `c`. -/
theorem C134_adaptive_averages [IsProbabilityMeasure μ] {U : UserFuns XR N (nS flags) m} {L : Lapack XR}
    {specs : Fin N → ParamSpec XR} {opts : SimOpts XR}
    {extra : ExtraOpts XR (nS flags)} {ms : ModelSettings XR} {data : Data}
    {q : (Fin (nS flags) → ℝ) → Fin m → ℝ} {r : (Fin (nS flags) → ℝ) → ℝ} {v : Fin m → ℝ}
    (H : ∀ k : ℤ, 1 < k → AdaptiveProblem U G L specs { opts with nsimu := k } extra ms data q r v)
    (D : IdealRng G (nS flags) μ) (hlim : FiniteLimits flags specs)
    {M : ℝ} (hM : ∀ θ, posteriorDensity flags specs q r v θ ≤ M)
    (hntry : opts.ntry ≤ 2) (hai : 0 < opts.adaptint) (hall : ∀ k, flags k = true → (specs k).adapt = true)
    {e c η C : ℝ} (he : 0 < e) (hc : 0 < c) (hη : 0 < η) (hC : 0 < C) :
    ∃ K J k₀ : ℕ, K ≤ J ∧ ∀ k : ℕ, 1 < k → k₀ ≤ k → ∀ (fuel : ℕ) (f : (Fin (nS flags) → ℝ) → ℝ), Measurable f →
      (∀ θ, InLimits flags specs (finVec θ) → |f θ| ≤ C) →
      1 - (e + 16 * C ^ 2 / η ^ 2 * ((∑ j ∈ Finset.Ico J k, μ.real {s | ∃ out, ∃ rows : List (Fin (nS flags) → ℝ),
          runSimulation U G L fuel (newObj specs { opts with nsimu := k } extra ms data) s false = .ok out ∧
          out.results.chain = rows.map finVec ∧
          ∃ w : Fin (nS flags) → ℝ, ∑ i, ∑ l, w i * sampleCov (rows.take (j - K)) i l * w l < c * ∑ i, w i ^ 2}) / k)) ≤
        μ.real {s | ∃ out, ∃ t : ℕ → Fin (nS flags) → ℝ,
          runSimulation U G L fuel (newObj specs { opts with nsimu := k } extra ms data) s false = .ok out ∧
          (∀ j : ℕ, j < k → out.results.chain[j]? = some (finVec (t j))) ∧
          |(∑ j ∈ Finset.range k, f (t j)) / k - (∫ θ, f θ ∂posteriorMeasure flags specs q r v) /
            (posteriorMeasure flags specs q r v).real Set.univ| < η} := by
  have he' : 0 < e * η ^ 2 / (32 * C ^ 2) := by positivity
  have H2 := H 2 (by norm_num)
  obtain ⟨hZ0, hZt, hZS⟩ := posterior_mass (v := v) hlim H2.measurable.1 H2.measurable.2 hM
  have hprob : IsProbabilityMeasure (posteriorLaw flags specs q r v) := ⟨by
    unfold posteriorLaw
    rw [Measure.smul_apply, smul_eq_mul, ENNReal.inv_mul_cancel hZ0 hZt]⟩
  obtain ⟨hL, ds, ε, sc, x, hds0, hsc0, hx0, hproc⟩ := adaptive_facts H D hall
  have hdens : (fun θ => (pointAt (logPost flags specs q r v) θ).density) = posteriorDensity flags specs q r v :=
    funext (logPost_density v)
  have hd : Measurable fun θ => (pointAt (logPost flags specs q r v) θ).density := by
    rw [hdens]; exact measurable_posteriorDensity H2.measurable.1 H2.measurable.2
  obtain ⟨a, b, hab, hbox⟩ := hlim.box
  obtain ⟨K, J, hKJ, hmain⟩ := process_moment D (lp := logPost flags specs q r v) (ds := ds) (ntry := opts.ntry)
    hd hds0 hntry (M := M) (fun y => by rw [congrFun hdens]; exact hM y) (a := a) (b := b)
    (fun y hy i => by
      have : y ∈ Set.Icc a b := by rw [← hbox]; exact (logPost_some y).1 hy
      exact ⟨this.1 i, this.2 i⟩) ⟨x, (logPost_some x).2 hx0⟩
    (π := posteriorLaw flags specs q r v) hZ0 hZt (by rw [posteriorLaw]; simp only [congrFun hdens]; rfl)
    hL hai ε hsc0 he' hc
  obtain ⟨k₀, hk₀⟩ := exists_nat_ge (8 * C ^ 2 * (1 + 2 * K + 2 * J) / (η ^ 2 * e))
  refine ⟨K, J, k₀, hKJ, fun k hk hkk fuel f hf hfC => ?_⟩
  obtain ⟨R0, Q, h⟩ := hproc k (by exact_mod_cast hk)
  have hmom := hmain Q R0 x ((logPost_some x).2 hx0) k
  set Hs := histAfter (factorMove D (logPost flags specs q r v) ds opts.ntry)
    (nextFactor hL opts.adaptint (fun _ => false) Q ε sc) x R0 with hHs
  have hmr : ∀ j, Measurable fun s => ((Hs j s).1 j).1 := fun j => measurable_fst.comp ((measurable_pi_apply j).comp
    (measurable_fst.comp (histAfter_fresh (measurable_factorMove D hd ds opts.ntry)
      (fresh_factorMove D hd hds0 opts.ntry) (measurable_nextFactor _ _ _ _ _ _) x R0 j).1))
  have hin : ∀ j s, ((Hs j s).1 j).1 ∈ {θ | InLimits flags specs (finVec θ)} := by
    intro j s
    refine (logPost_some (q := q) (r := r) (v := v) _).1 ?_
    induction j with
    | zero => exact (logPost_some x).2 hx0
    | succ j ih =>
      have : ((Hs (j + 1) s).1 (j + 1)).1 = (factorMove D (logPost flags specs q r v) ds opts.ntry ((Hs j s).1 j).2
          (((Hs j s).1 j).1, (Hs j s).2)).1 := by
        simp only [hHs, histAfter, histStep, update_self]
      rw [this]
      exact factorMove_mem D _ _ ih
  have hS0 : posteriorLaw flags specs q r v {θ | InLimits flags specs (finVec θ)}ᶜ = 0 := by
    unfold posteriorLaw
    rw [Measure.smul_apply, hZS, smul_zero]
  have hk0 : (0 : ℝ) < k := by exact_mod_cast (by omega : 0 < k)
  have hav := average_of_moment (μ := μ) (π := posteriorLaw flags specs q r v) hmr hin hS0 (by omega : 0 < k)
    hmom hf hC hfC hη
  have e2 : ∫ θ, f θ ∂posteriorLaw flags specs q r v = (∫ θ, f θ ∂posteriorMeasure flags specs q r v) /
      (posteriorMeasure flags specs q r v).real Set.univ := by
    unfold posteriorLaw Measure.real
    rw [integral_smul_measure, ENNReal.toReal_inv, smul_eq_mul, inv_mul_eq_div]
  rw [e2] at hav
  set p := (∫ θ, f θ ∂posteriorMeasure flags specs q r v) / (posteriorMeasure flags specs q r v).real Set.univ
  have hcol : ∀ j ∈ Finset.Ico J k, μ.real {s | ∃ out, ∃ rows : List (Fin (nS flags) → ℝ),
      runSimulation U G L fuel (newObj specs { opts with nsimu := k } extra ms data) s false = .ok out ∧
      out.results.chain = rows.map finVec ∧
      ∃ w : Fin (nS flags) → ℝ, ∑ i, ∑ l, w i * sampleCov (rows.take (j - K)) i l * w l < c * ∑ i, w i ^ 2} =
      μ.real {s | ¬ ∀ w, c * ∑ i, w i ^ 2 ≤ w ⬝ᵥ (Matrix.mulVec (histCov (j - K) (Hs (j - K) s).1) w)} := by
    intro j hj
    have := (Finset.mem_Ico.1 hj).2
    rw [collapse_set (fun s => h s fuel) (by omega) c]
  rw [Finset.sum_congr rfl hcol]
  rw [← Finset.mul_sum, Finset.sum_add_distrib] at hav
  set csum := ∑ j ∈ Finset.Ico J k, μ.real {s | ¬ ∀ w, c * ∑ i, w i ^ 2 ≤
    w ⬝ᵥ (Matrix.mulVec (histCov (j - K) (Hs (j - K) s).1) w)}
  have hle : ∑ _j ∈ Finset.Ico J k, e * η ^ 2 / (32 * C ^ 2) ≤ k * (e * η ^ 2 / (32 * C ^ 2)) := by
    rw [Finset.sum_const, Nat.card_Ico, nsmul_eq_mul]
    gcongr
    exact_mod_cast Nat.sub_le _ _
  have hbound : 4 * C ^ 2 * (k * (1 + 2 * K + 2 * J) + 2 * k * (2 * (∑ _j ∈ Finset.Ico J k, e * η ^ 2 / (32 * C ^ 2) +
      csum))) / (k ^ 2 * η ^ 2) ≤ e + 16 * C ^ 2 / η ^ 2 * (csum / k) := by
    have h1 : 4 * C ^ 2 * (k * (1 + 2 * K + 2 * J) + 2 * k * (2 * (∑ _j ∈ Finset.Ico J k, e * η ^ 2 / (32 * C ^ 2) +
        csum))) / (k ^ 2 * η ^ 2) ≤ 4 * C ^ 2 * (k * (1 + 2 * K + 2 * J) + 2 * k * (2 * (k * (e * η ^ 2 / (32 * C ^ 2)) +
        csum))) / (k ^ 2 * η ^ 2) := by gcongr
    refine h1.trans ?_
    have h2 : 4 * C ^ 2 * (k * (1 + 2 * K + 2 * J) + 2 * k * (2 * (k * (e * η ^ 2 / (32 * C ^ 2)) +
        csum))) / (k ^ 2 * η ^ 2) = 4 * C ^ 2 * (1 + 2 * K + 2 * J) / (η ^ 2 * k) + e / 2 +
          16 * C ^ 2 / η ^ 2 * (csum / k) := by
      field_simp
      ring
    rw [h2]
    have h3 : 4 * C ^ 2 * (1 + 2 * K + 2 * J) / (η ^ 2 * k) ≤ e / 2 := by
      have h4 : 8 * C ^ 2 * (1 + 2 * K + 2 * J) / (η ^ 2 * e) ≤ k := hk₀.trans (by exact_mod_cast hkk)
      rw [div_le_iff₀ (by positivity)] at h4 ⊢
      linarith
    linarith
  have hm : Measurable fun s => |(∑ j ∈ Finset.range k, f ((Hs j s).1 j).1) / k - p| := by
    have h1 : Measurable fun s => ∑ j ∈ Finset.range k, f ((Hs j s).1 j).1 :=
      Finset.measurable_sum _ fun j _ => hf.comp (hmr j)
    exact ((h1.div_const _).sub_const _).abs
  have hms : MeasurableSet {s | η ≤ |(∑ j ∈ Finset.range k, f ((Hs j s).1 j).1) / k - p|} :=
    measurableSet_le measurable_const hm
  have hc' := probReal_compl_eq_one_sub (μ := μ) hms
  calc 1 - (e + 16 * C ^ 2 / η ^ 2 * (csum / k))
      ≤ 1 - μ.real {s | η ≤ |(∑ j ∈ Finset.range k, f ((Hs j s).1 j).1) / k - p|} := by
        linarith [hav.trans hbound]
    _ = μ.real {s | η ≤ |(∑ j ∈ Finset.range k, f ((Hs j s).1 j).1) / k - p|}ᶜ := hc'.symm
    _ ≤ _ := by
      refine measureReal_mono (fun s hs => ?_)
      obtain ⟨out, rows, ho, hr, -, hp⟩ := h s fuel
      refine ⟨out, fun j => ((Hs j s).1 j).1, ho, fun j hj => ?_, by simpa using hs⟩
      rw [hr, List.getElem?_map, hp j (by exact_mod_cast hj) j le_rfl]
      rfl

/-! ### Examples -/

/-- C133 for the posterior `exp(-θ²/2)` on `[-10, 10]`, sampled by `dram` with an adaptation every 100 iterations: the law of row `j` in runs of `j + 1` rows and the event `0 ≤ θ`; the probability of
a small variance is with `n = 1` that of a sample variance below `1/10`. -/
example : ∃ K J : ℕ, K < J ∧ ∀ j : ℕ, J ≤ j →
    |(coinLaw (nS XRun.flags)).real {s | ∃ out t, runSimulation XRun.user (coinRng (nS XRun.flags)) choleskyLapack 0
          (newObj (m := 1) (XRun.specs true) (defineSimulationOptions { nsimu := j + 1, method := .dram })
            (XRun.extra 1 1) XRun.settings XRun.data) s false = .ok out ∧
          out.results.chain[j]? = some (finVec t) ∧ t ∈ {t | 0 ≤ t ⟨0, by decide⟩}} -
      (posteriorMeasure (m := 1) XRun.flags (XRun.specs true)
        (fun θ _ => θ ⟨0, by decide⟩ * θ ⟨0, by decide⟩) (fun _ => 0) (fun _ => 1)).real
          {t | 0 ≤ t ⟨0, by decide⟩} /
      (posteriorMeasure (m := 1) XRun.flags (XRun.specs true)
        (fun θ _ => θ ⟨0, by decide⟩ * θ ⟨0, by decide⟩) (fun _ => 0) (fun _ => 1)).real Set.univ| ≤
    1 / 100 + (coinLaw (nS XRun.flags)).real {s | ∃ out, ∃ rows : List (Fin (nS XRun.flags) → ℝ),
        runSimulation XRun.user (coinRng (nS XRun.flags)) choleskyLapack 0
          (newObj (m := 1) (XRun.specs true) (defineSimulationOptions { nsimu := j + 1, method := .dram })
            (XRun.extra 1 1) XRun.settings XRun.data) s false = .ok out ∧
        out.results.chain = rows.map finVec ∧
        ∃ w : Fin (nS XRun.flags) → ℝ, ∑ i, ∑ l, w i * sampleCov (rows.take (j - K)) i l * w l <
          1 / 10 * ∑ i, w i ^ 2} := by
  obtain ⟨K, J, h0, h⟩ := C133_adaptive_convergence
    (opts := defineSimulationOptions { nsimu := 2, method := .dram }) XRun.adaptiveProblem (coinIdeal _)
    XRun.finiteLimits (M := 1) XRun.density_le (show (2 : ℤ) ≤ 2 by decide) (show (0 : ℤ) < 100 by decide)
    (fun _ _ => rfl) (e := 1 / 100) (c := 1 / 10) (by norm_num) (by norm_num)
  refine ⟨K, J, h0, fun j hj => h (j + 1) (by omega) 0 j hj (by omega) _ ?_⟩
  exact measurableSet_le measurable_const (measurable_pi_apply _)

/-- C134 for that posterior and sampler: the average of `θ`, up to `1/10`. -/
example : ∃ K J k₀ : ℕ, K ≤ J ∧ ∀ k : ℕ, 1 < k → k₀ ≤ k →
    1 - (1 / 100 + 16 * 10 ^ 2 / (1 / 10) ^ 2 * ((∑ j ∈ Finset.Ico J k, (coinLaw (nS XRun.flags)).real
        {s | ∃ out, ∃ rows : List (Fin (nS XRun.flags) → ℝ),
          runSimulation XRun.user (coinRng (nS XRun.flags)) choleskyLapack 0
            (newObj (m := 1) (XRun.specs true) (defineSimulationOptions { nsimu := k, method := .dram })
              (XRun.extra 1 1) XRun.settings XRun.data) s false = .ok out ∧
          out.results.chain = rows.map finVec ∧
          ∃ w : Fin (nS XRun.flags) → ℝ, ∑ i, ∑ l, w i * sampleCov (rows.take (j - K)) i l * w l <
            1 / 10 * ∑ i, w i ^ 2}) / k)) ≤
      (coinLaw (nS XRun.flags)).real {s | ∃ out, ∃ t : ℕ → Fin (nS XRun.flags) → ℝ,
        runSimulation XRun.user (coinRng (nS XRun.flags)) choleskyLapack 0
          (newObj (m := 1) (XRun.specs true) (defineSimulationOptions { nsimu := k, method := .dram })
            (XRun.extra 1 1) XRun.settings XRun.data) s false = .ok out ∧
        (∀ j : ℕ, j < k → out.results.chain[j]? = some (finVec (t j))) ∧
        |(∑ j ∈ Finset.range k, t j ⟨0, by decide⟩) / k -
          (∫ θ, θ ⟨0, by decide⟩ ∂(posteriorMeasure (m := 1) XRun.flags (XRun.specs true)
            (fun θ _ => θ ⟨0, by decide⟩ * θ ⟨0, by decide⟩) (fun _ => 0) (fun _ => 1))) /
          (posteriorMeasure (m := 1) XRun.flags (XRun.specs true)
            (fun θ _ => θ ⟨0, by decide⟩ * θ ⟨0, by decide⟩) (fun _ => 0) (fun _ => 1)).real Set.univ| < 1 / 10} := by
  obtain ⟨K, J, k₀, h0, h⟩ := C134_adaptive_averages
    (opts := defineSimulationOptions { nsimu := 2, method := .dram }) XRun.adaptiveProblem (coinIdeal _)
    XRun.finiteLimits (M := 1) XRun.density_le (show (2 : ℤ) ≤ 2 by decide) (show (0 : ℤ) < 100 by decide)
    (fun _ _ => rfl) (e := 1 / 100) (c := 1 / 10) (η := 1 / 10) (C := 10) (by norm_num) (by norm_num) (by norm_num)
    (by norm_num)
  refine ⟨K, J, k₀, h0, fun k hk hkk => h k hk hkk 0 (fun θ => θ ⟨0, by decide⟩) (measurable_pi_apply _) ?_⟩
  intro θ hθ
  have := hθ ⟨0, by decide⟩ 0 (by decide)
  simp [XRun.specs, finVec] at this
  exact abs_le.2 this

end Verif
