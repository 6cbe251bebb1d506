import Verif.Lemmas.ResamplingRows
import Verif.Props.AdaptiveCoverage
import Verif.Props.PropCoverage

/-! # C153: prediction intervals of adaptive runs cover what they claim unless the covariance collapses -/

set_option linter.unusedSectionVars false

namespace Verif
open XR MeasureTheory Function ProbabilityTheory
open scoped ENNReal

section fixed
variable {σ : Type} [MeasurableSpace σ] {μ : Measure σ} [IsProbabilityMeasure μ] {G : Rng σ XR} {N m : ℕ}
  {flags : Fin N → Bool} {U : UserFuns XR N (nS flags) m} {L : Lapack XR}
  {specs : Fin N → ParamSpec XR} {opts : SimOpts XR}
  {extra : ExtraOpts XR (nS flags)} {ms : ModelSettings XR} {data : Data}
  {q : (Fin (nS flags) → ℝ) → Fin m → ℝ} {r : (Fin (nS flags) → ℝ) → ℝ} {v : Fin m → ℝ}

/-- quantiles of values computed from rows of an adaptive run and independent normal draws -/
theorem adaptive_resampled
    (H : ∀ k : ℤ, 1 < k → AdaptiveProblem U G L specs { opts with nsimu := k } extra ms data q r v)
    (D : IdealRng G (nS flags) μ) (hlim : FiniteLimits flags specs)
    {Z : ℝ} (hZ : ∀ θ, posteriorDensity flags specs q r v θ ≤ Z)
    (hntry : opts.ntry ≤ 2) (hai : 0 < opts.adaptint) (hall : ∀ k, flags k = true → (specs k).adapt = true)
    {η : ℝ} (hη : 0 < η) {ι : Type} [Fintype ι] {V : ι → (Fin (nS flags) → ℝ) × ℝ → ℝ} (hV : ∀ a, Measurable (V a))
    {W : Type} [MeasurableSpace W] {ν : Measure W} [IsProbabilityMeasure ν] {u : W → ℝ} (hu : Measurable u)
    {ζ : ι → W → ℝ} (hζ : ∀ a, Measurable (ζ a))
    (hlaw : ∀ a, ν.map (fun w => (u w, ζ a w)) = (volume.restrict (Set.Icc (0 : ℝ) 1)).prod (gaussianReal 0 1)) :
    ∃ A : ℝ, 0 ≤ A ∧ ∀ e c : ℝ, 0 < e → 0 < c → ∃ K J n₀ : ℕ, K ≤ J ∧ 2 ≤ n₀ ∧ ∀ k b n M : ℕ, b + n ≤ k → n₀ ≤ M →
      M ≤ n → b ≤ n → ∀ all : Bool, (all = true → M = n) → ∀ fuel : ℕ,
      ∃ T : ℕ → σ → Fin (nS flags) → ℝ, ∃ B : Set (σ × (ℕ → W)), MeasurableSet B ∧
        (μ.prod (Measure.infinitePi fun _ : ℕ => ν)).real B ≤ e + A *
          ((∑ j ∈ Finset.Ico J (b + n), μ.real {s | ∃ out, ∃ rows : List (Fin (nS flags) → ℝ),
          runSimulation U G L fuel (newObj specs { opts with nsimu := k } extra ms data) s false = .ok out ∧
          out.results.chain = rows.map finVec ∧
          ∃ w : Fin (nS flags) → ℝ, ∑ i, ∑ l, w i * sampleCov (rows.take (j - K)) i l * w l < c * ∑ i, w i ^ 2}) / n) ∧
        (∀ s w, (s, w) ∉ B → ∀ a p, 0 ≤ p → p ≤ 1 → ∀ z,
          z = interpAt ((List.ofFn fun k : Fin M =>
            V a (T (b + pickRow all n k (u (w k))) s, ζ a (w k))).insertionSort (· ≤ ·)) (((M : ℝ) - 1) * p) →
          p - η ≤ ((posteriorLaw flags specs q r v).prod (gaussianReal 0 1)).real {y | V a y ≤ z} ∧
          ((posteriorLaw flags specs q r v).prod (gaussianReal 0 1)).real {y | V a y < z} ≤ p + η) ∧
        ∀ s, ∃ out,
          runSimulation U G L fuel (newObj specs { opts with nsimu := k } extra ms data) s false = .ok out ∧
          ∀ j : ℕ, j < k → out.results.chain[j]? = some (finVec (T j s)) := by
  have H2 := H 2 (by norm_num)
  have hprob : IsProbabilityMeasure (posteriorLaw flags specs q r v) := by
    obtain ⟨hZ0, hZt, -⟩ := posterior_mass (v := v) hlim H2.measurable.1 H2.measurable.2 hZ
    exact ⟨by unfold posteriorLaw; rw [Measure.smul_apply, smul_eq_mul, ENNReal.inv_mul_cancel hZ0 hZt]⟩
  obtain ⟨κ, _, lab, χ, Kq, hKq2, hχ, hχ01, hquant⟩ := exists_resampled_events (π := posteriorLaw flags specs q r v) hη (gaussianReal 0 1) hV
  obtain ⟨hm, hm01, -⟩ := drawMean_spec (π := posteriorLaw flags specs q r v) (γ := gaussianReal 0 1) hχ hχ01
  refine ⟨Fintype.card κ * 1024 / (η / 4 / 2) ^ 2, by positivity, fun e c he hc => ?_⟩
  obtain ⟨K, J, n₀, hKJ, h⟩ := adaptive_windows H D hlim hZ hntry hai hall (u := drawMean (gaussianReal 0 1) χ)
    hm hm01 (δ := η / 4 / 2) (by positivity) (e := e / 2) (by positivity) hc
  obtain ⟨n₁, hn₁⟩ := exists_nat_ge ((Fintype.card κ : ℝ) / ((η / 4 / 2) ^ 2 * (e / 2)))
  refine ⟨K, J, n₀ + n₁ + Kq, hKJ, by omega, fun k b n M hbk hnM hMn hbn all hal fuel => ?_⟩
  obtain ⟨T, hT, B, hB, hBe, hgood, hrun⟩ := h k b n (by omega) hbk (by omega) (by omega) hbn fuel
  obtain ⟨B', h1, h2, h3⟩ := rows_resampled (μ := μ) (π := posteriorLaw flags specs q r v) hη hχ hχ01 hquant hu hζ hlaw
    (Xr := fun j s => T (b + j) s) (fun j => hT (b + j)) (n := n) (M := M) (by omega) (by omega) hMn hal hB
    (e' := e / 2) (by positivity) (hn₁.trans (by exact_mod_cast (by omega : n₁ ≤ M))) hBe hgood
  exact ⟨T, B', h1, h2.trans (by linarith), h3, hrun⟩

/-- **C153, propagation.** Methods `am` and `dram` as in C152.  Let `calculate_intervals` evaluate a model with `nq`
quantities of interest at `nsample` rows of the chain without its first `b` rows, with error variances given by hand.
If the number of rows used is large enough and not less than the burn-in, then except with probability `e` plus `A` times
the average probability of a collapse the run and the evaluation succeed and, for every quantity, the bands
of `credible` contain the model response with the posterior probability of their limits, and the bands of `prediction`
contain a new observation with the posterior predictive probability of their limits, up to `η`, at every point. -/
theorem C153_adaptive_prediction {D' R : Type}
    (H : ∀ k : ℤ, 1 < k → AdaptiveProblem U G L specs { opts with nsimu := k } extra ms data q r v)
    (D : IdealRng G (nS flags) μ) (hlim : FiniteLimits flags specs)
    {Z : ℝ} (hZ : ∀ θ, posteriorDensity flags specs q r v θ ≤ Z)
    (hntry : opts.ntry ≤ 2) (hai : 0 < opts.adaptint) (hall : ∀ k, flags k = true → (specs k).adapt = true)
    {η : ℝ} (hη : 0 < η)
    {model : Vec XR N → D' → Except PyErr (ModelOut XR)} {d : D'} {rr nq : ℕ} (hnq : 1 ≤ nq)
    {g : (Fin (nS flags) → ℝ) → Fin rr → Fin nq → ℝ}
    (hg : ∀ i j, Measurable fun θ => g θ i j) (hmod : GivesOutput specs model d g) (rest : R)
    {s2 : XR ⊕ S2Chain XR} {V : Fin nq → ℝ} (hs2 : GivenVariances s2 V) (hV : ∀ jj, 0 ≤ V jj)
    {sst : ℤ} (hsst : sst = 0 ∨ sst = 1 ∨ sst = 2) (hroot : sst = 1 → ∀ θ i j, 0 ≤ g θ i j)
    {ν : Measure (ℝ × (ℕ → ℕ → ℕ → ℝ))} (hν : IdealDraws ν) :
    ∃ A : ℝ, 0 ≤ A ∧ ∀ e c : ℝ, 0 < e → 0 < c → ∃ K J n₀ : ℕ, K ≤ J ∧ ∀ k b nsample : ℕ,
      n₀ ≤ min nsample (k - b) → b ≤ min nsample (k - b) → ∀ fuel,
      1 - (e + A * ((∑ j ∈ Finset.Ico J (b + min nsample (k - b)), μ.real {s | ∃ out, ∃ rows : List (Fin (nS flags) → ℝ),
          runSimulation U G L fuel (newObj specs { opts with nsimu := k } extra ms data) s false = .ok out ∧
          out.results.chain = rows.map finVec ∧
          ∃ w : Fin (nS flags) → ℝ, ∑ i, ∑ l, w i * sampleCov (rows.take (j - K)) i l * w l < c * ∑ i, w i ^ 2}) /
            (min nsample (k - b) : ℕ))) ≤
      (μ.prod (Measure.infinitePi fun _ : ℕ => ν)).real {z | ∃ out res st cols,
        runSimulation U G L fuel (newObj specs { opts with nsimu := k } extra ms data) z.1 false = .ok out ∧
        calculateIntervals (out.results.chain.drop b) ⟨parindOf flags, out.results.theta, rest⟩ d model
          s2 (propObs sst fun kk jj i => .fin ((z.2 kk).2 jj i 0))
          (defineSamplePoints nsample (out.results.chain.drop b).length
            (List.ofFn fun k : Fin nsample => (z.2 k).1)).1 = .ok (res, st) ∧
        intervalsReturned false st = .ok cols ∧ cols.length = nq ∧
        ∀ jj : Fin nq, ∃ C P : List (Fin rr → ℝ), cols[jj.val]? =
            some (C.map (fun y => List.ofFn (finVec y)), some (P.map fun y => List.ofFn (finVec y))) ∧
          BandsCover (posteriorLaw flags specs q r v) (fun θ i => g θ i jj) η C ∧
          BandsCover ((posteriorLaw flags specs q r v).prod (gaussianReal 0 1))
            (fun y i => observed Real.sqrt Real.exp sst (g y.1 i jj) (y.2 * Real.sqrt (V jj))) η P} := by
  have H2 := H 2 (by norm_num)
  have hprob : IsProbabilityMeasure (posteriorLaw flags specs q r v) := by
    obtain ⟨hZ0, hZt, -⟩ := posterior_mass (v := v) hlim H2.measurable.1 H2.measurable.2 hZ
    exact ⟨by unfold posteriorLaw; rw [Measure.smul_apply, smul_eq_mul, ENNReal.inv_mul_cancel hZ0 hZt]⟩
  obtain ⟨x, hx⟩ : ∃ x : Fin (nS flags) → ℝ, ∀ i, (specs (parindOf flags i)).theta0 = .fin (x i) := by
    have := fun i => H2.valid.initial (parindOf flags i)
    choose x hx using this
    exact ⟨x, hx⟩
  have hνp := hν.prob
  obtain ⟨f, hfd⟩ : ∃ f : (Fin (nS flags) → ℝ) → Fin rr → Fin nq → ℝ, f = g := ⟨_, rfl⟩
  obtain ⟨vv, hvd⟩ : ∃ vv : (Fin (nS flags) → ℝ) → Fin nq → ℝ, vv = fun _ => V := ⟨_, rfl⟩
  have hf : ∀ i j, Measurable fun y => f y i j := fun i j => by rw [hfd]; exact hg i j
  have hv : ∀ j, Measurable fun y => vv y j := fun j => by rw [hvd]; exact measurable_const
  obtain ⟨A, hA, h⟩ := adaptive_resampled H D hlim hZ hntry hai hall (η := η / 2) (by positivity)
    (ι := (Fin rr × Fin nq) × Bool)
    (V := fun a z => if a.2 then observed Real.sqrt Real.exp sst (f z.1 a.1.1 a.1.2) (z.2 * Real.sqrt (vv z.1 a.1.2))
      else f z.1 a.1.1 a.1.2)
    (fun a => by
      obtain ⟨a, b⟩ := a
      cases b with
      | false => exact (hf a.1 a.2).comp measurable_fst
      | true => exact measurable_obs (hf a.1 a.2) (hv a.2) sst) (ν := ν)
    (u := Prod.fst) measurable_fst (ζ := fun a w => w.2 a.1.2 a.1.1 0)
    (fun a => (measurable_pi_apply _).comp ((measurable_pi_apply _).comp
      ((measurable_pi_apply _).comp measurable_snd))) fun a => hν a.1.2 a.1.1 0
  refine ⟨A, hA, fun e c he hc => ?_⟩
  obtain ⟨K, J, n₀, hKJ, hn2, h⟩ := h e c he hc
  refine ⟨K, J, n₀ + nq + 2, hKJ, fun k b nsample hKn hbn fuel => ?_⟩
  obtain ⟨n, hn⟩ : ∃ n, n = min nsample (k - b) := ⟨_, rfl⟩
  rw [← hn] at hKn hbn ⊢
  obtain ⟨T, B, hB, hBe, hgood, hrun⟩ := h k b n n (by omega) (by omega) le_rfl hbn true (fun _ => rfl) fuel
  refine (sub_le_sub_left hBe 1).trans ?_
  rw [← probReal_compl_eq_one_sub hB]
  refine measureReal_mono fun z hz => ?_
  obtain ⟨out, ho, hr⟩ := hrun z.1
  obtain ⟨hlen0, -, -, last, -, hlast⟩ := C02_chain_records_moves (H k (by omega)).valid.noRestart ho
  have hlen : (out.results.chain.length : ℤ) = k := hlen0
  have hdl : (out.results.chain.drop b).length = k - b := by rw [List.length_drop]; omega
  obtain ⟨res, st, cols, h1, h2, h3, h4⟩ := returned_rows (startsAt_self hx) hlast hnq hmod rest
    (t := fun j => T j z.1) (b := b) (n := n) (by omega) (fun j hj => hr _ (by omega))
    (iis := (defineSamplePoints nsample (k - b) (List.ofFn fun k : Fin nsample => (z.2 k).1)).1)
    (by rw [samplePoints_length _ _ _ (by simp), hn]) (V := fun _ => V) (fun _ _ => hV)
    (fun kk _ jj => hs2.of (by omega) (by omega) kk jj) hsst hroot (fun kk jj i => (z.2 kk).2 jj i 0)
  refine ⟨out, res, st, cols, ho, by rw [hdl]; exact h1, h2, h3, fun jj => ⟨_, _, h4 jj, ?_⟩⟩
  subst hfd hvd
  have hpr : ∀ E : Set ((Fin (nS flags) → ℝ)), ((posteriorLaw flags specs q r v).prod (gaussianReal 0 1)).real {z | z.1 ∈ E} = (posteriorLaw flags specs q r v).real E := fun E => by
    rw [show {z : ((Fin (nS flags) → ℝ)) × ℝ | z.1 ∈ E} = E ×ˢ Set.univ by ext z; simp, measureReal_prod_prod]
    simp
  refine ⟨?_, ?_⟩
  · refine bandsCover_of (fun i => hf i jj) hη (by omega) (v := fun k i => f (T (b + k) z.1) i jj)
      fun i p p0 p1 y hy => ?_
    have := hgood z.1 z.2 hz ((i, jj), false) p p0 p1 y hy
    rw [← hpr, ← hpr]
    exact this
  · exact bandsCover_of (fun i => measurable_obs (hf i jj) (hv jj) sst) hη (by omega)
      (v := fun k i => observed Real.sqrt Real.exp sst (f (T (b + k) z.1) i jj)
        ((z.2 k).2 jj i 0 * Real.sqrt (V jj)))
      fun i p p0 p1 y hy => hgood z.1 z.2 hz ((i, jj), true) p p0 p1 y hy

/-- **C153, PredictionIntervals.** Methods `am` and `dram` as in C152.  Let `generate_prediction_intervals` use `nsample`
rows drawn at random, or all rows, of the chain without its first `b` rows.  If the number of rows used is
large enough and at least `b` rows are left, then except with probability `e` plus `A` times the average probability of a
collapse the run, the preparation and the generation succeed and for every output column of every data
set the nine curves are calibrated: between any two of them lies the difference of their levels in posterior
probability, up to `η`. -/
theorem C153_adaptive_intervals {D' : Type}
    (H : ∀ k : ℤ, 1 < k → AdaptiveProblem U G L specs { opts with nsimu := k } extra ms data q r v)
    (D : IdealRng G (nS flags) μ) (hlim : FiniteLimits flags specs)
    {Z : ℝ} (hZ : ∀ θ, posteriorDensity flags specs q r v θ ≤ Z)
    (hntry : opts.ntry ≤ 2) (hai : 0 < opts.adaptint) (hall : ∀ k, flags k = true → (specs k).adapt = true)
    {η : ℝ} (hη : 0 < η)
    {th0 : Fin N → ℝ} (hth0 : ∀ k, flags k = false → (specs k).theta0 = .fin (th0 k))
    {sets : List D'} {mf : ModelFun D' ℝ} {sh : ℕ → ℕ × ℕ} {g : ℕ → (Fin (nS flags) → ℝ) → ℕ → ℕ → ℝ}
    (hg : ∀ ii i j, Measurable fun θ => g ii θ i j) (hmod : GivesMatrix (parindOf flags) th0 mf sets sh g)
    {sst : Option ℤ} (hsst : sst.getD 0 ∈ [0, 1, 2]) (flag : PyFlag)
    {ν : Measure (ℝ × (ℕ → ℕ → ℕ → ℝ))} (hν : IdealDraws ν) :
    ∃ A : ℝ, 0 ≤ A ∧ ∀ e c : ℝ, 0 < e → 0 < c → ∃ K J n₀ : ℕ, K ≤ J ∧ ∀ (k b : ℕ) (nsample : Option ℕ),
      n₀ ≤ min (nsample.getD (k - b)) (k - b) → b ≤ k - b → ∀ fuel,
      1 - (e + A * ((∑ j ∈ Finset.Ico J k, μ.real {s | ∃ out, ∃ rows : List (Fin (nS flags) → ℝ),
          runSimulation U G L fuel (newObj specs { opts with nsimu := k } extra ms data) s false = .ok out ∧
          out.results.chain = rows.map finVec ∧
          ∃ w : Fin (nS flags) → ℝ, ∑ i, ∑ l, w i * sampleCov (rows.take (j - K)) i l * w l < c * ∑ i, w i ^ 2}) / (k - b : ℕ))) ≤
      (μ.prod (Measure.infinitePi fun _ : ℕ => ν)).real {z | ∃ out R S o,
        runSimulation U G L fuel (newObj specs { opts with nsimu := k } extra ms data) z.1 false = .ok out ∧
        RealResults out.results sst R ∧ setupIntervals R sets mf b = .ok S ∧
        generateIntervals Real.sqrt Real.exp S none nsample flag
          (List.ofFn fun k : Fin (nsample.getD 0) => (z.2 k).1) (fun ii k i j => (z.2 k).2 ii i j) = .ok o ∧
        o.prediction = none ∧ o.credible.length = sets.length ∧
        ∀ ii < sets.length, ∃ cols, o.credible[ii]? = some cols ∧ cols.length = (sh ii).2 ∧
          ∀ jj < (sh ii).2, ∃ lims, cols[jj]? = some lims ∧
            Calibrated (posteriorLaw flags specs q r v) (fun θ i => g ii θ i jj) (levels false) (sh ii).1 η lims} := by
  have H2 := H 2 (by norm_num)
  have hprob : IsProbabilityMeasure (posteriorLaw flags specs q r v) := by
    obtain ⟨hZ0, hZt, -⟩ := posterior_mass (v := v) hlim H2.measurable.1 H2.measurable.2 hZ
    exact ⟨by unfold posteriorLaw; rw [Measure.smul_apply, smul_eq_mul, ENNReal.inv_mul_cancel hZ0 hZt]⟩
  obtain ⟨x, hx⟩ : ∃ x : Fin (nS flags) → ℝ, ∀ i, (specs (parindOf flags i)).theta0 = .fin (x i) := by
    have := fun i => H2.valid.initial (parindOf flags i)
    choose x hx using this
    exact ⟨x, hx⟩
  have hνp := hν.prob
  obtain ⟨A, hA, h⟩ := adaptive_resampled H D hlim hZ hntry hai hall (η := η / 2) (by positivity)
    (ι := Σ ii : Fin sets.length, Fin (sh ii).1 × Fin (sh ii).2)
    (V := fun a z => g a.1 z.1 a.2.1 a.2.2) (fun a => (hg a.1 a.2.1 a.2.2).comp measurable_fst) (ν := ν)
    (u := Prod.fst) measurable_fst (ζ := fun a w => w.2 a.1 a.2.1 a.2.2)
    (fun a => (measurable_pi_apply _).comp ((measurable_pi_apply _).comp
      ((measurable_pi_apply _).comp measurable_snd))) fun a => hν a.1 a.2.1 a.2.2
  refine ⟨A, hA, fun e c he hc => ?_⟩
  obtain ⟨K, J, n₀, hKJ, hn2, h⟩ := h e c he hc
  refine ⟨K, J, n₀, hKJ, fun k b nsample hKn hbn fuel => ?_⟩
  have hk2 : 2 ≤ k - b := hn2.trans (hKn.trans (min_le_right _ _))
  obtain ⟨T, B, hB, hBe, hgood, hrun⟩ := h k b (k - b) (min (nsample.getD (k - b)) (k - b)) (by omega) hKn
    (min_le_right _ _) hbn (decide (k - b ≤ nsample.getD (k - b))) (fun h => min_eq_right (of_decide_eq_true h)) fuel
  rw [show b + (k - b) = k by omega] at hBe
  refine (sub_le_sub_left hBe 1).trans ?_
  rw [← probReal_compl_eq_one_sub hB]
  refine ENNReal.toReal_mono (measure_ne_top _ _) (measure_mono_ae ?_)
  filter_upwards [Measure.quasiMeasurePreserving_snd.ae hν.uniform] with z hu hz
  obtain ⟨out, ho, hr⟩ := hrun z.1
  obtain ⟨hlen0, -, -, last, hl, hlast⟩ := C02_chain_records_moves (H k (by omega)).valid.noRestart ho
  have hlen : out.results.chain.length = k := by
    have : (out.results.chain.length : ℤ) = k := hlen0
    exact_mod_cast this
  rw [hlen, hr (k - 1) (by omega)] at hl
  cases hl
  obtain ⟨th, hth1, hth2⟩ := belongsTo_real (startsAt_self hx) hth0 hlast
  have hs2 : out.results.s2chain = none :=
    ((run_updatesigma ho).1 H2.noSampling.2 H2.noSampling.1).2
  let R : IntResults ℝ N (nS flags) :=
    { chain := List.ofFn fun j : Fin k => T j z.1, s2chain := none, parind := parindOf flags,
      loc := fun _ => 0, theta := th, sstype := sst }
  have hR : RealResults out.results sst R :=
    ⟨eq_map_finVec hlen (t := fun j => T j z.1) fun j hj => hr j (by omega), hth1, .inl ⟨hs2, rfl⟩, rfl,
      fun _ => rfl, rfl⟩
  obtain ⟨S, o, h1, h2, h3, h4, h5, -⟩ := intervals_values (R := R) (parindOf_injective flags) (fun _ => rfl) hth2
    hmod (b := b) (n := k - b) (by simp [R]; omega) (t := fun j => T (b + j) z.1)
    (fun j hj => by simp only [R]; rw [List.getElem?_ofFn, dif_pos (by omega)])
    (m := m) (t2 := fun _ _ => 0) (.inl rfl) hsst (nsample := nsample) (hn2.trans hKn) hu flag
    (fun ii k i j => (z.2 k).2 ii i j) (sqrt := Real.sqrt) (exp := Real.exp)
  have hnone : o.prediction = none := by
    cases hp : o.prediction with
    | none => rfl
    | some pr => rw [hp] at h3; exact absurd (h3.1 rfl).1 (by simp [R])
  refine ⟨out, R, S, o, ho, hR, h1, h2, hnone, h4, fun ii hii => ?_⟩
  obtain ⟨cols, c1, c2, c3⟩ := h5 ii hii
  refine ⟨cols, c1, c2, fun jj hjj => ?_⟩
  obtain ⟨lims, d1, d2⟩ := c3 jj hjj
  refine ⟨lims, d1, ?_⟩
  rw [hnone] at d2
  refine d2.calibrated (levels_mem _) (fun i _ => hg ii i jj) hη fun i hi p p0 p1 qq hqq => ?_
  have := hgood z.1 z.2 hz ⟨⟨ii, hii⟩, ⟨i, hi⟩, ⟨jj, hjj⟩⟩ p p0 p1 qq hqq
  have hpr : ∀ E : Set (Fin (nS flags) → ℝ), ((posteriorLaw flags specs q r v).prod (gaussianReal 0 1)).real
      {z | z.1 ∈ E} = (posteriorLaw flags specs q r v).real E := fun E => by
    rw [show {z : (Fin (nS flags) → ℝ) × ℝ | z.1 ∈ E} = E ×ˢ Set.univ by ext z; simp, measureReal_prod_prod]
    simp
  rw [← hpr, ← hpr]
  exact this

end fixed

section joint
variable {σ : Type} [MeasurableSpace σ] {μ : Measure σ} [IsProbabilityMeasure μ] {G : Rng σ XR} {N m : ℕ}
  {flags : Fin N → Bool} {U : UserFuns XR N (nS flags) m} {L : Lapack XR}
  {specs : Fin N → ParamSpec XR} {opts : SimOpts XR}
  {extra : ExtraOpts XR (nS flags)} {ms : ModelSettings XR} {data : Data}
  {q : (Fin (nS flags) → ℝ) → Fin m → ℝ} {r : (Fin (nS flags) → ℝ) → ℝ} {Nobs N0 S20 v : Fin m → ℝ}

/-- quantiles of values computed from rows of an adaptive run and independent normal draws -/
theorem adaptive_joint_resampled
    (H : ∀ k : ℤ, 1 < k → AdaptiveJointProblem U G L specs { opts with nsimu := k } extra ms data q r Nobs N0 S20 v)
    (D : IdealRng G (nS flags) μ) (D1 : IdealRng G 1 μ) (hlim : FiniteLimits flags specs) {Z β : ℝ}
    (hbd : BoundedProblem flags specs q r N0 S20 Z β)
    (hntry : opts.ntry ≤ 2) (hai : 0 < opts.adaptint) (hall : ∀ k, flags k = true → (specs k).adapt = true)
    {η : ℝ} (hη : 0 < η) {ι : Type} [Fintype ι] {V : ι → ((Fin (nS flags) → ℝ) × (Fin m → ℝ)) × ℝ → ℝ} (hV : ∀ a, Measurable (V a))
    {W : Type} [MeasurableSpace W] {ν : Measure W} [IsProbabilityMeasure ν] {u : W → ℝ} (hu : Measurable u)
    {ζ : ι → W → ℝ} (hζ : ∀ a, Measurable (ζ a))
    (hlaw : ∀ a, ν.map (fun w => (u w, ζ a w)) = (volume.restrict (Set.Icc (0 : ℝ) 1)).prod (gaussianReal 0 1)) :
    ∃ A : ℝ, 0 ≤ A ∧ ∀ e c : ℝ, 0 < e → 0 < c → ∃ K J n₀ : ℕ, K ≤ J ∧ 2 ≤ n₀ ∧ ∀ k b n M : ℕ, b + n ≤ k → n₀ ≤ M →
      M ≤ n → b ≤ n → ∀ all : Bool, (all = true → M = n) →
      ∃ T : ℕ → σ → (Fin (nS flags) → ℝ) × (Fin m → ℝ), ∃ B : Set (σ × (ℕ → W)), MeasurableSet B ∧
        (μ.prod (Measure.infinitePi fun _ : ℕ => ν)).real B ≤ e + A *
          ((∑ j ∈ Finset.Ico J (b + n), μ.real {s | ∃ F, ∀ fuel, F ≤ fuel → ∃ out,
          ∃ rows : List (Fin (nS flags) → ℝ),
          runSimulation U G L fuel (newObj specs { opts with nsimu := k } extra ms data) s false = .ok out ∧
          out.results.chain = rows.map finVec ∧
          ∃ w : Fin (nS flags) → ℝ, ∑ i, ∑ l, w i * sampleCov (rows.take (j - K)) i l * w l < c * ∑ i, w i ^ 2}) / n) ∧
        (∀ s w, (s, w) ∉ B → ∀ a p, 0 ≤ p → p ≤ 1 → ∀ z,
          z = interpAt ((List.ofFn fun k : Fin M =>
            V a (T (b + pickRow all n k (u (w k))) s, ζ a (w k))).insertionSort (· ≤ ·)) (((M : ℝ) - 1) * p) →
          p - η ≤ ((jointLaw flags specs q r Nobs N0 S20).prod (gaussianReal 0 1)).real {y | V a y ≤ z} ∧
          ((jointLaw flags specs q r Nobs N0 S20).prod (gaussianReal 0 1)).real {y | V a y < z} ≤ p + η) ∧
        ∀ᵐ s ∂μ, (∀ j l, 0 < (T j s).2 l) ∧ ∃ F, ∀ fuel, F ≤ fuel → ∃ out s2,
          runSimulation U G L fuel (newObj specs { opts with nsimu := k } extra ms data) s false = .ok out ∧
          out.results.s2chain = some s2 ∧
          ∀ j : ℕ, j < k → out.results.chain[j]? = some (finVec (T j s).1) ∧ s2[j]? = some (finVec (T j s).2) := by
  have H2 := H 2 (by norm_num)
  have hprob : IsProbabilityMeasure (jointLaw flags specs q r Nobs N0 S20) := by
    obtain ⟨hZ0, hZt, -⟩ := joint_mass hlim hbd H2.measurable.1 H2.measurable.2 H2.shapes
    exact ⟨by unfold jointLaw; rw [Measure.smul_apply, smul_eq_mul, ENNReal.inv_mul_cancel hZ0 hZt]⟩
  obtain ⟨κ, _, lab, χ, Kq, hKq2, hχ, hχ01, hquant⟩ := exists_resampled_events (π := jointLaw flags specs q r Nobs N0 S20) hη (gaussianReal 0 1) hV
  obtain ⟨hm, hm01, -⟩ := drawMean_spec (π := jointLaw flags specs q r Nobs N0 S20) (γ := gaussianReal 0 1) hχ hχ01
  refine ⟨Fintype.card κ * 1024 / (η / 4 / 2) ^ 2, by positivity, fun e c he hc => ?_⟩
  obtain ⟨K, J, n₀, hKJ, h⟩ := adaptive_joint_windows H D D1 hlim hbd hntry hai hall (u := drawMean (gaussianReal 0 1) χ)
    hm hm01 (δ := η / 4 / 2) (by positivity) (e := e / 2) (by positivity) hc
  obtain ⟨n₁, hn₁⟩ := exists_nat_ge ((Fintype.card κ : ℝ) / ((η / 4 / 2) ^ 2 * (e / 2)))
  refine ⟨K, J, n₀ + n₁ + Kq, hKJ, by omega, fun k b n M hbk hnM hMn hbn all hal => ?_⟩
  obtain ⟨T, hT, B, hB, hBe, hgood, hrun⟩ := h k b n (by omega) hbk (by omega) (by omega) hbn
  obtain ⟨B', h1, h2, h3⟩ := rows_resampled (μ := μ) (π := jointLaw flags specs q r Nobs N0 S20) hη hχ hχ01 hquant hu hζ hlaw
    (Xr := fun j s => T (b + j) s) (fun j => hT (b + j)) (n := n) (M := M) (by omega) (by omega) hMn hal hB
    (e' := e / 2) (by positivity) (hn₁.trans (by exact_mod_cast (by omega : n₁ ≤ M))) hBe hgood
  exact ⟨T, B', h1, h2.trans (by linarith), h3, hrun⟩

/-- **C153, propagation** with sampled error variances: the chain of error variances of the run is given to
`calculate_intervals`, without its first `b` rows. -/
theorem C153_adaptive_prediction_joint {D' R : Type}
    (H : ∀ k : ℤ, 1 < k → AdaptiveJointProblem U G L specs { opts with nsimu := k } extra ms data q r Nobs N0 S20 v)
    (D : IdealRng G (nS flags) μ) (D1 : IdealRng G 1 μ) (hlim : FiniteLimits flags specs) {Z β : ℝ}
    (hbd : BoundedProblem flags specs q r N0 S20 Z β)
    (hntry : opts.ntry ≤ 2) (hai : 0 < opts.adaptint) (hall : ∀ k, flags k = true → (specs k).adapt = true)
    {η : ℝ} (hη : 0 < η)
    {model : Vec XR N → D' → Except PyErr (ModelOut XR)} {d : D'} {rr nq : ℕ} (hnq : 1 ≤ nq)
    {g : (Fin (nS flags) → ℝ) → Fin rr → Fin nq → ℝ}
    (hg : ∀ i j, Measurable fun θ => g θ i j) (hmod : GivesOutput specs model d g) (rest : R)
    (hm : m = 1 ∨ m = nq)
    {sst : ℤ} (hsst : sst = 0 ∨ sst = 1 ∨ sst = 2) (hroot : sst = 1 → ∀ θ i j, 0 ≤ g θ i j)
    {ν : Measure (ℝ × (ℕ → ℕ → ℕ → ℝ))} (hν : IdealDraws ν) :
    ∃ A : ℝ, 0 ≤ A ∧ ∀ e c : ℝ, 0 < e → 0 < c → ∃ K J n₀ : ℕ, K ≤ J ∧ ∀ k b nsample : ℕ,
      n₀ ≤ min nsample (k - b) → b ≤ min nsample (k - b) →
      1 - (e + A * ((∑ j ∈ Finset.Ico J (b + min nsample (k - b)), μ.real {s | ∃ F, ∀ fuel, F ≤ fuel → ∃ out,
          ∃ rows : List (Fin (nS flags) → ℝ),
          runSimulation U G L fuel (newObj specs { opts with nsimu := k } extra ms data) s false = .ok out ∧
          out.results.chain = rows.map finVec ∧
          ∃ w : Fin (nS flags) → ℝ, ∑ i, ∑ l, w i * sampleCov (rows.take (j - K)) i l * w l < c * ∑ i, w i ^ 2}) /
            (min nsample (k - b) : ℕ))) ≤
      (μ.prod (Measure.infinitePi fun _ : ℕ => ν)).real {z | ∃ F, ∀ fuel, F ≤ fuel → ∃ out s2 res st cols,
        runSimulation U G L fuel (newObj specs { opts with nsimu := k } extra ms data) z.1 false = .ok out ∧
        out.results.s2chain = some s2 ∧
        calculateIntervals (out.results.chain.drop b) ⟨parindOf flags, out.results.theta, rest⟩ d model
          (.inr (.two m (s2.drop b))) (propObs sst fun kk jj i => .fin ((z.2 kk).2 jj i 0))
          (defineSamplePoints nsample (out.results.chain.drop b).length
            (List.ofFn fun k : Fin nsample => (z.2 k).1)).1 = .ok (res, st) ∧
        intervalsReturned false st = .ok cols ∧ cols.length = nq ∧
        ∀ jj : Fin nq, ∃ C P : List (Fin rr → ℝ), cols[jj.val]? =
            some (C.map (fun y => List.ofFn (finVec y)), some (P.map fun y => List.ofFn (finVec y))) ∧
          BandsCover (jointLaw flags specs q r Nobs N0 S20) (fun y i => g y.1 i jj) η C ∧
          BandsCover ((jointLaw flags specs q r Nobs N0 S20).prod (gaussianReal 0 1))
            (fun y i => observed Real.sqrt Real.exp sst (g y.1.1 i jj) (y.2 * Real.sqrt (y.1.2 (varFor hm jj)))) η P} := by
  have H2 := H 2 (by norm_num)
  have hprob : IsProbabilityMeasure (jointLaw flags specs q r Nobs N0 S20) := by
    obtain ⟨hZ0, hZt, -⟩ := joint_mass hlim hbd H2.measurable.1 H2.measurable.2 H2.shapes
    exact ⟨by unfold jointLaw; rw [Measure.smul_apply, smul_eq_mul, ENNReal.inv_mul_cancel hZ0 hZt]⟩
  obtain ⟨x, hx⟩ : ∃ x : Fin (nS flags) → ℝ, ∀ i, (specs (parindOf flags i)).theta0 = .fin (x i) := by
    have := fun i => H2.valid.initial (parindOf flags i)
    choose x hx using this
    exact ⟨x, hx⟩
  have hνp := hν.prob
  obtain ⟨f, hfd⟩ : ∃ f : (Fin (nS flags) → ℝ) × (Fin m → ℝ) → Fin rr → Fin nq → ℝ, f = fun y => g y.1 := ⟨_, rfl⟩
  obtain ⟨vv, hvd⟩ : ∃ vv : (Fin (nS flags) → ℝ) × (Fin m → ℝ) → Fin nq → ℝ, vv = fun y jj => y.2 (varFor hm jj) := ⟨_, rfl⟩
  have hf : ∀ i j, Measurable fun y => f y i j := fun i j => by rw [hfd]; exact (hg i j).comp measurable_fst
  have hv : ∀ j, Measurable fun y => vv y j := fun j => by rw [hvd]; exact (measurable_pi_apply _).comp measurable_snd
  obtain ⟨A, hA, h⟩ := adaptive_joint_resampled H D D1 hlim hbd hntry hai hall (η := η / 2) (by positivity)
    (ι := (Fin rr × Fin nq) × Bool)
    (V := fun a z => if a.2 then observed Real.sqrt Real.exp sst (f z.1 a.1.1 a.1.2) (z.2 * Real.sqrt (vv z.1 a.1.2))
      else f z.1 a.1.1 a.1.2)
    (fun a => by
      obtain ⟨a, b⟩ := a
      cases b with
      | false => exact (hf a.1 a.2).comp measurable_fst
      | true => exact measurable_obs (hf a.1 a.2) (hv a.2) sst) (ν := ν)
    (u := Prod.fst) measurable_fst (ζ := fun a w => w.2 a.1.2 a.1.1 0)
    (fun a => (measurable_pi_apply _).comp ((measurable_pi_apply _).comp
      ((measurable_pi_apply _).comp measurable_snd))) fun a => hν a.1.2 a.1.1 0
  refine ⟨A, hA, fun e c he hc => ?_⟩
  obtain ⟨K, J, n₀, hKJ, hn2, h⟩ := h e c he hc
  refine ⟨K, J, n₀, hKJ, fun k b nsample hKn hbn => ?_⟩
  obtain ⟨n, hn⟩ : ∃ n, n = min nsample (k - b) := ⟨_, rfl⟩
  rw [← hn] at hKn hbn ⊢
  obtain ⟨T, B, hB, hBe, hgood, hrun⟩ := h k b n n (by omega) (by omega) le_rfl hbn true (fun _ => rfl)
  refine (sub_le_sub_left hBe 1).trans ?_
  rw [← probReal_compl_eq_one_sub hB]
  refine ENNReal.toReal_mono (measure_ne_top _ _) (measure_mono_ae ?_)
  filter_upwards [Measure.quasiMeasurePreserving_fst.ae hrun] with z hs hz
  obtain ⟨hpos, F, hF⟩ := hs
  refine ⟨F, fun fuel hfuel => ?_⟩
  obtain ⟨out, s2, ho, hs2, hr⟩ := hF fuel hfuel
  obtain ⟨hlen0, -, -, last, -, hlast⟩ := C02_chain_records_moves (H k (by omega)).valid.noRestart ho
  have hlen : (out.results.chain.length : ℤ) = k := hlen0
  have hdl : (out.results.chain.drop b).length = k - b := by rw [List.length_drop]; omega
  have hs2l : s2.length = out.results.chain.length := by
    obtain ⟨-, n, hn, -, -, -, hcl, -, h2l, -⟩ := fresh_logs ho
    rw [h2l s2 hs2, ← hcl]
  obtain ⟨res, st, cols, h1, h2, h3, h4⟩ := returned_rows (startsAt_self hx) hlast hnq hmod rest
    (t := fun j => (T j z.1).1) (b := b) (n := n) (by omega) (fun j hj => (hr _ (by omega)).1)
    (iis := (defineSamplePoints nsample (k - b) (List.ofFn fun k : Fin nsample => (z.2 k).1)).1)
    (by rw [samplePoints_length _ _ _ (by simp), hn]) (s2 := .inr (.two m (s2.drop b)))
    (V := fun kk jj => (T (b + kk) z.1).2 (varFor hm jj)) (fun kk _ jj => (hpos (b + kk) _).le)
    (fun kk hkk jj => ⟨finVec (T (b + kk) z.1).2, .inl ⟨by rw [List.length_drop, List.length_drop, hs2l], by
        rw [List.getElem?_drop]; exact (hr (b + kk) (by omega)).2⟩, by
        unfold varFor
        by_cases h : m = 1
        · refine .inr ⟨h, ?_⟩
          rw [List.getElem?_ofFn, dif_pos (by omega), dif_pos h]; rfl
        · have hmc : m = nq := by omega
          refine .inl ⟨hmc, ?_⟩
          rw [List.getElem?_ofFn, dif_pos (by have := jj.2; omega), dif_neg h]; rfl⟩)
    hsst hroot (fun kk jj i => (z.2 kk).2 jj i 0)
  refine ⟨out, s2, res, st, cols, ho, hs2, by rw [hdl]; exact h1, h2, h3, fun jj => ⟨_, _, h4 jj, ?_⟩⟩
  subst hfd hvd
  have hpr : ∀ E : Set ((Fin (nS flags) → ℝ) × (Fin m → ℝ)), ((jointLaw flags specs q r Nobs N0 S20).prod (gaussianReal 0 1)).real {z | z.1 ∈ E} = (jointLaw flags specs q r Nobs N0 S20).real E := fun E => by
    rw [show {z : ((Fin (nS flags) → ℝ) × (Fin m → ℝ)) × ℝ | z.1 ∈ E} = E ×ˢ Set.univ by ext z; simp, measureReal_prod_prod]
    simp
  refine ⟨?_, ?_⟩
  · refine bandsCover_of (fun i => hf i jj) hη (by omega) (v := fun k i => g (T (b + k) z.1).1 i jj)
      fun i p p0 p1 y hy => ?_
    have := hgood z.1 z.2 hz ((i, jj), false) p p0 p1 y hy
    rw [← hpr, ← hpr]
    exact this
  · exact bandsCover_of (fun i => measurable_obs (hf i jj) (hv jj) sst) hη (by omega)
      (v := fun k i => observed Real.sqrt Real.exp sst (g (T (b + k) z.1).1 i jj)
        ((z.2 k).2 jj i 0 * Real.sqrt ((T (b + k) z.1).2 (varFor hm jj))))
      fun i p p0 p1 y hy => hgood z.1 z.2 hz ((i, jj), true) p p0 p1 y hy

/-- **C153, PredictionIntervals** with sampled error variances: the curves of the prediction intervals are calibrated
with the posterior predictive probability. -/
theorem C153_adaptive_intervals_joint {D' : Type}
    (H : ∀ k : ℤ, 1 < k → AdaptiveJointProblem U G L specs { opts with nsimu := k } extra ms data q r Nobs N0 S20 v)
    (D : IdealRng G (nS flags) μ) (D1 : IdealRng G 1 μ) (hlim : FiniteLimits flags specs) {Z β : ℝ}
    (hbd : BoundedProblem flags specs q r N0 S20 Z β)
    (hntry : opts.ntry ≤ 2) (hai : 0 < opts.adaptint) (hall : ∀ k, flags k = true → (specs k).adapt = true)
    {η : ℝ} (hη : 0 < η)
    {th0 : Fin N → ℝ} (hth0 : ∀ k, flags k = false → (specs k).theta0 = .fin (th0 k))
    {sets : List D'} {mf : ModelFun D' ℝ} {sh : ℕ → ℕ × ℕ} {g : ℕ → (Fin (nS flags) → ℝ) → ℕ → ℕ → ℝ}
    (hg : ∀ ii i j, Measurable fun θ => g ii θ i j) (hmod : GivesMatrix (parindOf flags) th0 mf sets sh g)
    (hm : m = 1 ∨ m = ((List.range sets.length).map fun ii => (sh ii).2).sum ∨ m = sets.length)
    {sst : Option ℤ} (hsst : sst.getD 0 ∈ [0, 1, 2]) (_hroot : sst.getD 0 = 1 → ∀ ii θ i j, 0 ≤ g ii θ i j)
    (flag : PyFlag) {ν : Measure (ℝ × (ℕ → ℕ → ℕ → ℝ))} (hν : IdealDraws ν) :
    ∃ A : ℝ, 0 ≤ A ∧ ∀ e c : ℝ, 0 < e → 0 < c → ∃ K J n₀ : ℕ, K ≤ J ∧ ∀ (k b : ℕ) (nsample : Option ℕ),
      n₀ ≤ min (nsample.getD (k - b)) (k - b) → b ≤ k - b →
      1 - (e + A * ((∑ j ∈ Finset.Ico J k, μ.real {s | ∃ F, ∀ fuel, F ≤ fuel → ∃ out,
          ∃ rows : List (Fin (nS flags) → ℝ),
          runSimulation U G L fuel (newObj specs { opts with nsimu := k } extra ms data) s false = .ok out ∧
          out.results.chain = rows.map finVec ∧
          ∃ w : Fin (nS flags) → ℝ, ∑ i, ∑ l, w i * sampleCov (rows.take (j - K)) i l * w l < c * ∑ i, w i ^ 2}) / (k - b : ℕ))) ≤
      (μ.prod (Measure.infinitePi fun _ : ℕ => ν)).real {z | ∃ F, ∀ fuel, F ≤ fuel → ∃ out R S o,
        runSimulation U G L fuel (newObj specs { opts with nsimu := k } extra ms data) z.1 false = .ok out ∧
        RealResults out.results sst R ∧ setupIntervals R sets mf b = .ok S ∧
        generateIntervals Real.sqrt Real.exp S none nsample flag
          (List.ofFn fun k : Fin (nsample.getD 0) => (z.2 k).1) (fun ii k i j => (z.2 k).2 ii i j) = .ok o ∧
        (o.prediction.isSome ↔ flag ≠ .bool false ∧ flag ≠ .str "off") ∧ o.credible.length = sets.length ∧
        (∀ ii < sets.length, ∃ cols, o.credible[ii]? = some cols ∧ cols.length = (sh ii).2 ∧
          ∀ jj < (sh ii).2, ∃ lims, cols[jj]? = some lims ∧
            Calibrated (jointLaw flags specs q r Nobs N0 S20) (fun z i => g ii z.1 i jj) (levels o.prediction.isSome)
              (sh ii).1 η lims) ∧
        ∀ pred, o.prediction = some pred → pred.length = sets.length ∧
          ∀ ii < sets.length, ∃ cols, pred[ii]? = some cols ∧ cols.length = (sh ii).2 ∧
          ∀ jj < (sh ii).2, ∃ lims, ∃ c : Fin m, cols[jj]? = some lims ∧
            VarianceColumn ((List.range sets.length).map fun ii => (sh ii).2) m ii jj c ∧
            Calibrated ((jointLaw flags specs q r Nobs N0 S20).prod (gaussianReal 0 1))
              (fun z i => observed Real.sqrt Real.exp (sst.getD 0) (g ii z.1.1 i jj) (z.2 * Real.sqrt (z.1.2 c)))
              (levels true) (sh ii).1 η lims} := by
  have H2 := H 2 (by norm_num)
  have hprob : IsProbabilityMeasure (jointLaw flags specs q r Nobs N0 S20) := by
    obtain ⟨hZ0, hZt, -⟩ := joint_mass hlim hbd H2.measurable.1 H2.measurable.2 H2.shapes
    exact ⟨by unfold jointLaw; rw [Measure.smul_apply, smul_eq_mul, ENNReal.inv_mul_cancel hZ0 hZt]⟩
  obtain ⟨x, hx⟩ : ∃ x : Fin (nS flags) → ℝ, ∀ i, (specs (parindOf flags i)).theta0 = .fin (x i) := by
    have := fun i => H2.valid.initial (parindOf flags i)
    choose x hx using this
    exact ⟨x, hx⟩
  have hνp := hν.prob
  have hobs : ∀ ii i jj (c : Fin m), Measurable fun z : ((Fin (nS flags) → ℝ) × (Fin m → ℝ)) × ℝ =>
      observed Real.sqrt Real.exp (sst.getD 0) (g ii z.1.1 i jj) (z.2 * Real.sqrt (z.1.2 c)) := fun ii i jj c =>
    measurable_observed ((hg ii i jj).comp (measurable_fst.comp measurable_fst))
      (measurable_snd.mul (((measurable_pi_apply c).comp (measurable_snd.comp measurable_fst)).sqrt)) _
  obtain ⟨A, hA, h⟩ := adaptive_joint_resampled H D D1 hlim hbd hntry hai hall (η := η / 2) (by positivity)
    (ι := (Σ ii : Fin sets.length, Fin (sh ii).1 × Fin (sh ii).2) × Option (Fin m))
    (V := fun a z => match a.2 with
      | none => g a.1.1 z.1.1 a.1.2.1 a.1.2.2
      | some c => observed Real.sqrt Real.exp (sst.getD 0) (g a.1.1 z.1.1 a.1.2.1 a.1.2.2) (z.2 * Real.sqrt (z.1.2 c)))
    (fun a => by
      obtain ⟨a, c⟩ := a
      cases c with
      | none => exact (hg a.1 a.2.1 a.2.2).comp (measurable_fst.comp measurable_fst)
      | some c => exact hobs a.1 a.2.1 a.2.2 c) (ν := ν)
    (u := Prod.fst) measurable_fst (ζ := fun a w => w.2 a.1.1 a.1.2.1 a.1.2.2)
    (fun a => (measurable_pi_apply _).comp ((measurable_pi_apply _).comp
      ((measurable_pi_apply _).comp measurable_snd))) fun a => hν a.1.1 a.1.2.1 a.1.2.2
  refine ⟨A, hA, fun e c he hc => ?_⟩
  obtain ⟨K, J, n₀, hKJ, hn2, h⟩ := h e c he hc
  refine ⟨K, J, n₀, hKJ, fun k b nsample hKn hbn => ?_⟩
  have hk2 : 2 ≤ k - b := hn2.trans (hKn.trans (min_le_right _ _))
  obtain ⟨T, B, hB, hBe, hgood, hrun⟩ := h k b (k - b) (min (nsample.getD (k - b)) (k - b)) (by omega) hKn
    (min_le_right _ _) hbn (decide (k - b ≤ nsample.getD (k - b))) (fun h => min_eq_right (of_decide_eq_true h))
  rw [show b + (k - b) = k by omega] at hBe
  refine (sub_le_sub_left hBe 1).trans ?_
  rw [← probReal_compl_eq_one_sub hB]
  refine ENNReal.toReal_mono (measure_ne_top _ _) (measure_mono_ae ?_)
  filter_upwards [Measure.quasiMeasurePreserving_snd.ae hν.uniform,
    Measure.quasiMeasurePreserving_fst.ae hrun] with z hu hs hz
  obtain ⟨-, F, hF⟩ := hs
  refine ⟨F, fun fuel hfuel => ?_⟩
  obtain ⟨out, s2, ho, hs2, hr⟩ := hF fuel hfuel
  obtain ⟨hlen0, -, -, last, hl, hlast⟩ := C02_chain_records_moves (H k (by omega)).valid.noRestart ho
  have hlen : out.results.chain.length = k := by
    have : (out.results.chain.length : ℤ) = k := hlen0
    exact_mod_cast this
  rw [hlen, (hr (k - 1) (by omega)).1] at hl
  cases hl
  obtain ⟨th, hth1, hth2⟩ := belongsTo_real (startsAt_self hx) hth0 hlast
  have hs2l : s2.length = k := by
    obtain ⟨-, n, hn, -, -, -, hcl, -, h2l, -⟩ := fresh_logs ho
    rw [h2l s2 hs2, ← hcl, hlen]
  let R : IntResults ℝ N (nS flags) :=
    { chain := List.ofFn fun j : Fin k => (T j z.1).1,
      s2chain := some ⟨m, List.ofFn fun j : Fin k => (T j z.1).2⟩, parind := parindOf flags,
      loc := fun _ => 0, theta := th, sstype := sst }
  have hR : RealResults out.results sst R :=
    ⟨eq_map_finVec hlen (t := fun j => (T j z.1).1) fun j hj => (hr j (by omega)).1, hth1,
      .inr ⟨_, by rw [hs2, eq_map_finVec hs2l (t := fun j => (T j z.1).2) fun j hj => (hr j (by omega)).2],
        rfl⟩, rfl, fun _ => rfl, rfl⟩
  obtain ⟨S, o, h1, h2, h3, h4, h5, h6⟩ := intervals_values (R := R) (parindOf_injective flags) (fun _ => rfl) hth2
    hmod (b := b) (n := k - b) (by simp [R]; omega) (t := fun j => (T (b + j) z.1).1)
    (fun j hj => by simp only [R]; rw [List.getElem?_ofFn, dif_pos (by omega)])
    (m := m) (t2 := fun j => (T (b + j) z.1).2) (.inr ⟨hm, _, rfl, by simp; omega,
      fun j hj => by rw [List.getElem?_ofFn, dif_pos (by omega)]⟩) hsst (nsample := nsample) (hn2.trans hKn) hu flag
    (fun ii k i j => (z.2 k).2 ii i j) (sqrt := Real.sqrt) (exp := Real.exp)
  refine ⟨out, R, S, o, ho, hR, h1, h2, h3.trans ⟨fun h => h.2, fun h => ⟨rfl, h⟩⟩, h4, fun ii hii => ?_,
    fun pred hpred => ?_⟩
  · obtain ⟨cols, c1, c2, c3⟩ := h5 ii hii
    refine ⟨cols, c1, c2, fun jj hjj => ?_⟩
    obtain ⟨lims, d1, d2⟩ := c3 jj hjj
    refine ⟨lims, d1, ?_⟩
    refine d2.calibrated (levels_mem _) (fun i _ => (hg ii i jj).comp measurable_fst) hη fun i hi pp p0 p1 qq hqq => ?_
    have := hgood z.1 z.2 hz (⟨⟨ii, hii⟩, ⟨i, hi⟩, ⟨jj, hjj⟩⟩, none) pp p0 p1 qq hqq
    have hpr : ∀ E : Set ((Fin (nS flags) → ℝ) × (Fin m → ℝ)),
        ((jointLaw flags specs q r Nobs N0 S20).prod (gaussianReal 0 1)).real {z | z.1 ∈ E} =
          (jointLaw flags specs q r Nobs N0 S20).real E := fun E => by
      rw [show {z : ((Fin (nS flags) → ℝ) × (Fin m → ℝ)) × ℝ | z.1 ∈ E} = E ×ˢ Set.univ by ext z; simp,
        measureReal_prod_prod]
      simp
    rw [← hpr, ← hpr]
    exact this
  · obtain ⟨e1, e2⟩ := h6 pred hpred
    refine ⟨e1, fun ii hii => ?_⟩
    obtain ⟨cols, c1, c2, c3⟩ := e2 ii hii
    refine ⟨cols, c1, c2, fun jj hjj => ?_⟩
    obtain ⟨lims, c, d1, d2, d3⟩ := c3 jj hjj
    refine ⟨lims, c, d1, d2, ?_⟩
    exact d3.calibrated (levels_mem _) (fun i _ => hobs ii i jj c) hη fun i hi pp p0 p1 qq hqq =>
      hgood z.1 z.2 hz (⟨⟨ii, hii⟩, ⟨i, hi⟩, ⟨jj, hjj⟩⟩, some c) pp p0 p1 qq hqq

end joint

theorem XRun.model2_gives_limited : GivesOutput (flags := XRun.flags) (XRun.specs true) XRun.model2 () XRun.values2 := by
  intro θ w hw
  have h0 : w 0 = .fin (θ ⟨0, by decide⟩) := by
    have h1 : ([w 0] : List XR) = List.ofFn (finVec θ) := hw.1
    have h2 := congrArg (fun l : List XR => l[0]?) h1
    rw [List.getElem?_ofFn, dif_pos (by decide)] at h2
    exact Option.some.inj h2
  refine ⟨_, rfl, .inr ⟨le_rfl, le_rfl, ?_⟩⟩
  congr 1
  funext i j
  unfold XRun.values2
  rw [h0]
  split_ifs <;> rfl

/-- C153 for a normal posterior cut at its limits, method `dram`, the variances 4 and 9 for the two quantities: 95 per cent
of the new observations of the square at the first point lie in the band of the second array `prediction`. -/
example : ∃ A : ℝ, 0 ≤ A ∧ ∃ K J n₀ : ℕ, K ≤ J ∧ ∀ k nsample : ℕ, n₀ ≤ nsample → 1000 ≤ nsample → nsample + 1000 ≤ k →
    1 - (1 / 100 + A * ((∑ j ∈ Finset.Ico J (1000 + nsample), (coinLaw (nS XRun.flags)).real
        {s | ∃ out, ∃ rows : List (Fin (nS XRun.flags) → ℝ),
          runSimulation XRun.user (coinRng (nS XRun.flags)) choleskyLapack 0
            (newObj (m := 1) (XRun.specs true) (defineSimulationOptions { nsimu := k, method := .dram })
              (XRun.extra 1 1) XRun.settings XRun.data) s false = .ok out ∧
          out.results.chain = rows.map finVec ∧
          ∃ w : Fin (nS XRun.flags) → ℝ, ∑ i, ∑ l, w i * sampleCov (rows.take (j - K)) i l * w l <
            1 / 10 * ∑ i, w i ^ 2}) / nsample)) ≤
      ((coinLaw (nS XRun.flags)).prod (Measure.infinitePi fun _ : ℕ => idealDraws)).real
      {z | ∃ out res st cols credible, ∃ P : List (Fin 2 → ℝ), ∃ lo hi,
        runSimulation XRun.user (coinRng (nS XRun.flags)) choleskyLapack 0
          (newObj (m := 1) (XRun.specs true) (defineSimulationOptions { nsimu := k, method := .dram })
            (XRun.extra 1 1) XRun.settings XRun.data) z.1 false = .ok out ∧
        calculateIntervals (out.results.chain.drop 1000) ⟨parindOf XRun.flags, out.results.theta, ()⟩ ()
          XRun.model2 (.inr (.one [.fin 4, .fin 9])) (propObs 0 fun kk jj i => .fin ((z.2 kk).2 jj i 0))
          (defineSamplePoints nsample (out.results.chain.drop 1000).length
            (List.ofFn fun k : Fin nsample => (z.2 k).1)).1 = .ok (res, st) ∧
        intervalsReturned false st = .ok cols ∧
        cols[1]? = some (credible, some (P.map fun y => List.ofFn (finVec y))) ∧
        intervalBands P none [95] = .ok [[lo, hi]] ∧
        95 / 100 - 1 / 100 ≤ ((posteriorLaw (m := 1) XRun.flags (XRun.specs true)
            (fun θ _ => θ ⟨0, by decide⟩ * θ ⟨0, by decide⟩) (fun _ => 0) (fun _ => 1)).prod (gaussianReal 0 1)).real
          {y | lo 0 ≤ y.1 ⟨0, by decide⟩ * y.1 ⟨0, by decide⟩ + y.2 * 3 ∧
            y.1 ⟨0, by decide⟩ * y.1 ⟨0, by decide⟩ + y.2 * 3 ≤ hi 0}} := by
  obtain ⟨A, hA, h⟩ := C153_adaptive_prediction
    (opts := defineSimulationOptions { nsimu := 2, method := .dram }) XRun.adaptiveProblem (coinIdeal _)
    XRun.finiteLimits (Z := 1) XRun.density_le (show (2 : ℤ) ≤ 2 by decide) (show (0 : ℤ) < 100 by decide)
    (fun _ _ => rfl) (η := 1 / 100) (by norm_num) (nq := 2) (by omega) XRun.values2_measurable
    XRun.model2_gives_limited () (s2 := .inr (.one [.fin 4, .fin 9])) (V := ![4, 9]) (.inr rfl)
    (fun jj => by fin_cases jj <;> simp) (sst := 0) (.inl rfl) (fun h => by cases h) idealDraws_ideal
  obtain ⟨K, J, n₀, h0, h⟩ := h (1 / 100) (1 / 10) (by norm_num) (by norm_num)
  have := idealDraws_ideal.prob
  refine ⟨A, hA, K, J, n₀, h0, fun k nsample h1 h2 h3 => ?_⟩
  have hmin : min nsample (k - 1000) = nsample := by omega
  have hh := h k 1000 nsample (by omega) (by omega) 0
  rw [hmin] at hh
  refine hh.trans (measureReal_mono fun z hz => ?_)
  obtain ⟨out, res, st, cols, ho, hc, hr, -, hcol⟩ := hz
  obtain ⟨C, P, e1, -, e2⟩ := hcol 1
  obtain ⟨bands, ls, hB, hp, -, hf⟩ := e2 none [95] (by
    intro l hl
    simp only [Option.getD_none, List.mem_cons, List.not_mem_nil, or_false] at hl
    subst hl; norm_num)
  obtain rfl := List.perm_singleton.1 hp
  cases hf with
  | cons f1 hf => cases hf with
    | nil =>
      obtain ⟨lo, hi, rfl, h95⟩ := f1
      refine ⟨out, res, st, cols, _, P, lo, hi, ho, hc, hr, e1, hB, ?_⟩
      have := (h95 0).1
      have h9 : Real.sqrt 9 = 3 := by
        rw [show (9 : ℝ) = 3 ^ 2 by norm_num]; exact Real.sqrt_sq (by norm_num)
      simpa [observed, XRun.values2, h9] using this

/-- C153 for the same run and `PredictionIntervals`: the nine curves for one data set of three points. -/
example : ∃ A : ℝ, 0 ≤ A ∧ ∃ K J n₀ : ℕ, K ≤ J ∧ ∀ k nsample : ℕ, n₀ ≤ nsample → nsample + 2000 ≤ k →
    1 - (1 / 100 + A * ((∑ j ∈ Finset.Ico J k, (coinLaw (nS XRun.flags)).real
        {s | ∃ out, ∃ rows : List (Fin (nS XRun.flags) → ℝ),
          runSimulation XRun.user (coinRng (nS XRun.flags)) choleskyLapack 0
            (newObj (m := 1) (XRun.specs true) (defineSimulationOptions { nsimu := k, method := .dram })
              (XRun.extra 1 1) XRun.settings XRun.data) s false = .ok out ∧
          out.results.chain = rows.map finVec ∧
          ∃ w : Fin (nS XRun.flags) → ℝ, ∑ i, ∑ l, w i * sampleCov (rows.take (j - K)) i l * w l <
            1 / 10 * ∑ i, w i ^ 2}) / (k - 1000 : ℕ))) ≤
      ((coinLaw (nS XRun.flags)).prod (Measure.infinitePi fun _ : ℕ => idealDraws)).real
      {z | ∃ out R S o cols lims,
        runSimulation XRun.user (coinRng (nS XRun.flags)) choleskyLapack 0
          (newObj (m := 1) (XRun.specs true) (defineSimulationOptions { nsimu := k, method := .dram })
            (XRun.extra 1 1) XRun.settings XRun.data) z.1 false = .ok out ∧
        RealResults out.results none R ∧ setupIntervals R [()] XRun.response 1000 = .ok S ∧
        generateIntervals Real.sqrt Real.exp S none (some nsample) (.bool true)
          (List.ofFn fun k : Fin nsample => (z.2 k).1) (fun ii k i j => (z.2 k).2 ii i j) = .ok o ∧
        o.prediction = none ∧ o.credible[0]? = some cols ∧ cols[0]? = some lims ∧
        Calibrated (posteriorLaw (m := 1) XRun.flags (XRun.specs true)
            (fun θ _ => θ ⟨0, by decide⟩ * θ ⟨0, by decide⟩) (fun _ => 0) (fun _ => 1))
          (fun θ i => XRun.values 0 θ i 0) (levels false) 3 (1 / 100) lims} := by
  obtain ⟨A, hA, h⟩ := C153_adaptive_intervals
    (opts := defineSimulationOptions { nsimu := 2, method := .dram }) XRun.adaptiveProblem (coinIdeal _)
    XRun.finiteLimits (Z := 1) XRun.density_le (show (2 : ℤ) ≤ 2 by decide) (show (0 : ℤ) < 100 by decide)
    (fun _ _ => rfl) (η := 1 / 100) (by norm_num) (th0 := fun _ => 0) (fun k hk => by cases hk) XRun.values_measurable
    XRun.response_gives (sst := none) (by decide) (.bool true) idealDraws_ideal
  obtain ⟨K, J, n₀, h0, h⟩ := h (1 / 100) (1 / 10) (by norm_num) (by norm_num)
  have := idealDraws_ideal.prob
  refine ⟨A, hA, K, J, n₀, h0, fun k nsample h1 h2 =>
    (h k 1000 (some nsample) (by simp; omega) (by omega) 0).trans (measureReal_mono fun z hz => ?_)⟩
  obtain ⟨out, R, S, o, ho, hR, hS, hg, hpn, -, hc⟩ := hz
  obtain ⟨cols, hc1, -, hc3⟩ := hc 0 (by decide)
  obtain ⟨lims, hl1, hcal⟩ := hc3 0 (by decide)
  exact ⟨out, R, S, o, cols, lims, ho, hR, hS, hg, hpn, hc1, hl1, hcal⟩

/-- C153 with a sampled error variance, used for both quantities. -/
example : ∃ A : ℝ, 0 ≤ A ∧ ∃ K J n₀ : ℕ, K ≤ J ∧ ∀ k nsample : ℕ, n₀ ≤ nsample → 1000 ≤ nsample → nsample + 1000 ≤ k →
    1 - (1 / 100 + A * ((∑ j ∈ Finset.Ico J (1000 + nsample), (coinLaw (nS XRun.flags)).real
        {s | ∃ F, ∀ fuel, F ≤ fuel → ∃ out, ∃ rows : List (Fin (nS XRun.flags) → ℝ),
          runSimulation XRun.user (coinRng (nS XRun.flags)) choleskyLapack fuel
            (newObj (m := 1) (XRun.specs true)
              (defineSimulationOptions { nsimu := k, method := .dram, updatesigma := true })
              (XRun.extra 1 1) (XRun.settingsAt fun _ => 2) XRun.data) s false = .ok out ∧
          out.results.chain = rows.map finVec ∧
          ∃ w : Fin (nS XRun.flags) → ℝ, ∑ i, ∑ l, w i * sampleCov (rows.take (j - K)) i l * w l <
            1 / 10 * ∑ i, w i ^ 2}) / nsample)) ≤
      ((coinLaw (nS XRun.flags)).prod (Measure.infinitePi fun _ : ℕ => idealDraws)).real
      {z | ∃ F, ∀ fuel, F ≤ fuel → ∃ out s2 res st cols credible, ∃ P : List (Fin 2 → ℝ), ∃ lo hi,
        runSimulation XRun.user (coinRng (nS XRun.flags)) choleskyLapack fuel
          (newObj (m := 1) (XRun.specs true)
            (defineSimulationOptions { nsimu := k, method := .dram, updatesigma := true })
            (XRun.extra 1 1) (XRun.settingsAt fun _ => 2) XRun.data) z.1 false = .ok out ∧
        out.results.s2chain = some s2 ∧
        calculateIntervals (out.results.chain.drop 1000) ⟨parindOf XRun.flags, out.results.theta, ()⟩ ()
          XRun.model2 (.inr (.two 1 (s2.drop 1000))) (propObs 0 fun kk jj i => .fin ((z.2 kk).2 jj i 0))
          (defineSamplePoints nsample (out.results.chain.drop 1000).length
            (List.ofFn fun k : Fin nsample => (z.2 k).1)).1 = .ok (res, st) ∧
        intervalsReturned false st = .ok cols ∧
        cols[1]? = some (credible, some (P.map fun y => List.ofFn (finVec y))) ∧
        intervalBands P none [95] = .ok [[lo, hi]] ∧
        95 / 100 - 1 / 100 ≤ ((jointLaw (m := 1) XRun.flags (XRun.specs true)
          (fun θ _ => θ ⟨0, by decide⟩ * θ ⟨0, by decide⟩) (fun _ => 0) (fun _ => 5) (fun _ => 1) (fun _ => 1)).prod
            (gaussianReal 0 1)).real
          {y | lo 0 ≤ y.1.1 ⟨0, by decide⟩ * y.1.1 ⟨0, by decide⟩ + y.2 * Real.sqrt (y.1.2 0) ∧
            y.1.1 ⟨0, by decide⟩ * y.1.1 ⟨0, by decide⟩ + y.2 * Real.sqrt (y.1.2 0) ≤ hi 0}} := by
  have D1 : IdealRng (coinRng (nS XRun.flags)) 1 (coinLaw (nS XRun.flags)) := by
    rw [XRun.nS_flags]; exact coinIdeal 1
  obtain ⟨A, hA, h⟩ := C153_adaptive_prediction_joint
    (opts := defineSimulationOptions { nsimu := 2, method := .dram, updatesigma := true }) XRun.adaptiveJointProblem
    (coinIdeal _) D1 XRun.finiteLimits XRun.boundedProblem (show (2 : ℤ) ≤ 2 by decide)
    (show (0 : ℤ) < 100 by decide) (fun _ _ => rfl) (η := 1 / 100) (by norm_num) (nq := 2) (by omega)
    XRun.values2_measurable XRun.model2_gives_limited () (.inl rfl) (sst := 0) (.inl rfl)
    (fun h => by cases h) idealDraws_ideal
  obtain ⟨K, J, n₀, h0, h⟩ := h (1 / 100) (1 / 10) (by norm_num) (by norm_num)
  have := idealDraws_ideal.prob
  refine ⟨A, hA, K, J, n₀, h0, fun k nsample h1 h2 h3 => ?_⟩
  have hmin : min nsample (k - 1000) = nsample := by omega
  have hh := h k 1000 nsample (by omega) (by omega)
  rw [hmin] at hh
  refine hh.trans (measureReal_mono fun z hz => ?_)
  obtain ⟨F, hz⟩ := hz
  refine ⟨F, fun fuel hfuel => ?_⟩
  obtain ⟨out, s2, res, st, cols, ho, hs2, hc, hr, -, hcol⟩ := hz fuel hfuel
  obtain ⟨C, P, e1, -, e2⟩ := hcol 1
  obtain ⟨bands, ls, hB, hp, -, hf⟩ := e2 none [95] (by
    intro l hl
    simp only [Option.getD_none, List.mem_cons, List.not_mem_nil, or_false] at hl
    subst hl; norm_num)
  obtain rfl := List.perm_singleton.1 hp
  cases hf with
  | cons f1 hf => cases hf with
    | nil =>
      obtain ⟨lo, hi, rfl, h95⟩ := f1
      refine ⟨out, s2, res, st, cols, _, P, lo, hi, ho, hs2, hc, hr, e1, hB, ?_⟩
      have := (h95 0).1
      simpa [observed, XRun.values2, varFor] using this

/-- C153 with a sampled error variance and `PredictionIntervals`, for all rows after the first 1000. -/
example : ∃ A : ℝ, 0 ≤ A ∧ ∃ K J n₀ : ℕ, K ≤ J ∧ ∀ k : ℕ, n₀ ≤ k →
    1 - (1 / 100 + A * ((∑ j ∈ Finset.Ico J k, (coinLaw (nS XRun.flags)).real
        {s | ∃ F, ∀ fuel, F ≤ fuel → ∃ out, ∃ rows : List (Fin (nS XRun.flags) → ℝ),
          runSimulation XRun.user (coinRng (nS XRun.flags)) choleskyLapack fuel
            (newObj (m := 1) (XRun.specs true)
              (defineSimulationOptions { nsimu := k, method := .dram, updatesigma := true })
              (XRun.extra 1 1) (XRun.settingsAt fun _ => 2) XRun.data) s false = .ok out ∧
          out.results.chain = rows.map finVec ∧
          ∃ w : Fin (nS XRun.flags) → ℝ, ∑ i, ∑ l, w i * sampleCov (rows.take (j - K)) i l * w l <
            1 / 10 * ∑ i, w i ^ 2}) / (k - 1000 : ℕ))) ≤
      ((coinLaw (nS XRun.flags)).prod (Measure.infinitePi fun _ : ℕ => idealDraws)).real
      {z | ∃ F, ∀ fuel, F ≤ fuel → ∃ out R S o pred cols lims,
        runSimulation XRun.user (coinRng (nS XRun.flags)) choleskyLapack fuel
          (newObj (m := 1) (XRun.specs true)
            (defineSimulationOptions { nsimu := k, method := .dram, updatesigma := true })
            (XRun.extra 1 1) (XRun.settingsAt fun _ => 2) XRun.data) z.1 false = .ok out ∧
        RealResults out.results none R ∧ setupIntervals R [()] XRun.response 1000 = .ok S ∧
        generateIntervals Real.sqrt Real.exp S none none (.str "on") []
          (fun ii k i j => (z.2 k).2 ii i j) = .ok o ∧
        o.prediction = some pred ∧ pred[0]? = some cols ∧ cols[0]? = some lims ∧
        Calibrated ((jointLaw (m := 1) XRun.flags (XRun.specs true)
            (fun θ _ => θ ⟨0, by decide⟩ * θ ⟨0, by decide⟩) (fun _ => 0) (fun _ => 5) (fun _ => 1) (fun _ => 1)).prod
              (gaussianReal 0 1))
          (fun z i => XRun.values 0 z.1.1 i 0 + z.2 * Real.sqrt (z.1.2 0)) (levels true) 3 (1 / 100) lims} := by
  have D1 : IdealRng (coinRng (nS XRun.flags)) 1 (coinLaw (nS XRun.flags)) := by
    rw [XRun.nS_flags]; exact coinIdeal 1
  obtain ⟨A, hA, h⟩ := C153_adaptive_intervals_joint
    (opts := defineSimulationOptions { nsimu := 2, method := .dram, updatesigma := true }) XRun.adaptiveJointProblem
    (coinIdeal _) D1 XRun.finiteLimits XRun.boundedProblem (show (2 : ℤ) ≤ 2 by decide)
    (show (0 : ℤ) < 100 by decide) (fun _ _ => rfl) (η := 1 / 100) (by norm_num) (th0 := fun _ => 0)
    (fun k hk => by cases hk) XRun.values_measurable XRun.response_gives (.inl rfl) (sst := none) (by decide)
    (fun h => by cases h) (.str "on") idealDraws_ideal
  obtain ⟨K, J, n₀, h0, h⟩ := h (1 / 100) (1 / 10) (by norm_num) (by norm_num)
  have := idealDraws_ideal.prob
  refine ⟨A, hA, K, J, n₀ + 2000, h0, fun k hk =>
    (h k 1000 none (by simp; omega) (by omega)).trans (measureReal_mono fun z hz => ?_)⟩
  obtain ⟨F, hz⟩ := hz
  refine ⟨F, fun fuel hfuel => ?_⟩
  obtain ⟨out, R, S, o, ho, hR, hS, hg, hpi, -, -, hc⟩ := hz fuel hfuel
  obtain ⟨pred, hpred⟩ := Option.isSome_iff_exists.1 (hpi.2 (by decide))
  obtain ⟨-, hc⟩ := hc pred hpred
  obtain ⟨cols, c1, -, c3⟩ := hc 0 (by decide)
  obtain ⟨lims, c, d1, -, hcal⟩ := c3 0 (by decide)
  refine ⟨out, R, S, o, pred, cols, lims, ho, hR, hS, hg, hpred, c1, d1, ?_⟩
  obtain rfl : c = 0 := Subsingleton.elim _ _
  exact hcal

end Verif
