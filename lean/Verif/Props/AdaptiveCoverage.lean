import Verif.Lemmas.CoverageRows
import Verif.Props.AdaptiveEstimates
import Verif.Props.Coverage

/-! # C152: credible intervals of adaptive runs cover what their limits say unless the covariance collapses -/

set_option linter.unusedSectionVars false

namespace Verif
open XR MeasureTheory Function ProbabilityTheory
open scoped ENNReal

section common
variable {N : ℕ} {flags : Fin N → Bool}

/-- the parameters of a problem start at their own initial values -/
theorem startsAt_self {specs : Fin N → ParamSpec XR} {x : Fin (nS flags) → ℝ}
    (hx : ∀ i, (specs (parindOf flags i)).theta0 = .fin (x i)) : StartsAt flags specs x specs := by
  refine ⟨fun i k hk => ?_, fun _ _ => rfl⟩
  have hk' : parindOf flags i = k := by
    have h1 : (sampledIdx flags)[i.val]? = some k := hk
    rw [List.getElem?_eq_getElem i.isLt] at h1
    exact Option.some.inj h1
  rw [← hk', ← hx i]

end common

section fixed
variable {σ : Type} [MeasurableSpace σ] {μ : Measure σ} [IsProbabilityMeasure μ] {G : Rng σ XR} {N m : ℕ}
  {flags : Fin N → Bool} {U : UserFuns XR N (nS flags) m} {L : Lapack XR}
  {specs : Fin N → ParamSpec XR} {opts : SimOpts XR}
  {extra : ExtraOpts XR (nS flags)} {ms : ModelSettings XR} {data : Data}
  {q : (Fin (nS flags) → ℝ) → Fin m → ℝ} {r : (Fin (nS flags) → ℝ) → ℝ} {v : Fin m → ℝ}

/-- the averages of finitely many functions with values in `[0, 1]`, over the rows after a burn-in, outside one measurable set -/
theorem adaptive_windows
    (H : ∀ k : ℤ, 1 < k → AdaptiveProblem U G L specs { opts with nsimu := k } extra ms data q r v)
    (D : IdealRng G (nS flags) μ) (hlim : FiniteLimits flags specs)
    {Z : ℝ} (hZ : ∀ θ, posteriorDensity flags specs q r v θ ≤ Z)
    (hntry : opts.ntry ≤ 2) (hai : 0 < opts.adaptint) (hall : ∀ k, flags k = true → (specs k).adapt = true)
    {κ : Type} [Fintype κ] {u : κ → (Fin (nS flags) → ℝ) → ℝ}
    (hu : ∀ a, Measurable (u a)) (hu01 : ∀ a y, 0 ≤ u a y ∧ u a y ≤ 1)
    {δ : ℝ} (hδ : 0 < δ) {e c : ℝ} (he : 0 < e) (hc : 0 < c) :
    ∃ K J n₀ : ℕ, K ≤ J ∧ ∀ k b n : ℕ, 1 < k → b + n ≤ k → n₀ ≤ n → 0 < n → b ≤ n → ∀ fuel : ℕ,
      ∃ T : ℕ → σ → Fin (nS flags) → ℝ, (∀ j, Measurable (T j)) ∧ ∃ B, MeasurableSet B ∧
        μ.real B ≤ e + Fintype.card κ * 1024 / δ ^ 2 *
          ((∑ j ∈ Finset.Ico J (b + n), μ.real {s | ∃ out, ∃ rows : List (Fin (nS flags) → ℝ),
          runSimulation U G L fuel (newObj specs { opts with nsimu := k } extra ms data) s false = .ok out ∧
          out.results.chain = rows.map finVec ∧
          ∃ w : Fin (nS flags) → ℝ, ∑ i, ∑ l, w i * sampleCov (rows.take (j - K)) i l * w l < c * ∑ i, w i ^ 2}) / n) ∧
        (∀ s, s ∉ B → ∀ a,
          |(∑ j ∈ Finset.range n, u a (T (b + j) s)) / n - ∫ y, u a y ∂posteriorLaw flags specs q r v| < δ) ∧
        ∀ s, ∃ out,
          runSimulation U G L fuel (newObj specs { opts with nsimu := k } extra ms data) s false = .ok out ∧
          ∀ j : ℕ, j < k → out.results.chain[j]? = some (finVec (T j s)) := by
  have H2 := H 2 (by norm_num)
  obtain ⟨hZ0, hZt, hZS⟩ := posterior_mass (v := v) hlim H2.measurable.1 H2.measurable.2 hZ
  have hprob : IsProbabilityMeasure (posteriorLaw flags specs q r v) := ⟨by
    unfold posteriorLaw
    rw [Measure.smul_apply, smul_eq_mul, ENNReal.inv_mul_cancel hZ0 hZt]⟩
  obtain ⟨hL, ds, ε, sc, x, hds0, hsc0, hx0, hproc⟩ := adaptive_facts H D hall
  have hdens : (fun θ => (pointAt (logPost flags specs q r v) θ).density) = posteriorDensity flags specs q r v :=
    funext (logPost_density v)
  have hd : Measurable fun θ => (pointAt (logPost flags specs q r v) θ).density := by
    rw [hdens]; exact measurable_posteriorDensity H2.measurable.1 H2.measurable.2
  obtain ⟨a, b, hab, hbox⟩ := hlim.box
  obtain ⟨K, J, hKJ, hmain⟩ := process_moment D (lp := logPost flags specs q r v) (ds := ds) (ntry := opts.ntry)
    hd hds0 hntry (M := Z) (fun y => by rw [congrFun hdens]; exact hZ y) (a := a) (b := b)
    (fun y hy i => by
      have : y ∈ Set.Icc a b := by rw [← hbox]; exact (logPost_some y).1 hy
      exact ⟨this.1 i, this.2 i⟩) ⟨x, (logPost_some x).2 hx0⟩
    (π := posteriorLaw flags specs q r v) hZ0 hZt (by rw [posteriorLaw]; simp only [congrFun hdens]; rfl)
    hL hai ε hsc0 (e := e * δ ^ 2 / (4096 * (Fintype.card κ + 1))) (by positivity) hc
  obtain ⟨n₀, hn₀⟩ := exists_nat_ge (512 * (Fintype.card κ : ℝ) * (1 + 2 * K + 2 * J) / (δ ^ 2 * e))
  refine ⟨K, J, n₀, hKJ, fun k b n hk hbk hnn hn hb fuel => ?_⟩
  obtain ⟨R0, Q, h⟩ := hproc k (by exact_mod_cast hk)
  have hmom := hmain Q R0 x ((logPost_some x).2 hx0)
  set Hs := histAfter (factorMove D (logPost flags specs q r v) ds opts.ntry)
    (nextFactor hL opts.adaptint (fun _ => false) Q ε sc) x R0 with hHs
  have hmr : ∀ j, Measurable fun s => ((Hs j s).1 j).1 := fun j => measurable_fst.comp ((measurable_pi_apply j).comp
    (measurable_fst.comp (histAfter_fresh (measurable_factorMove D hd ds opts.ntry)
      (fresh_factorMove D hd hds0 opts.ntry) (measurable_nextFactor _ _ _ _ _ _) x R0 j).1))
  have hcol : ∀ j ∈ Finset.Ico J (b + n), μ.real {s | ∃ out, ∃ rows : List (Fin (nS flags) → ℝ),
      runSimulation U G L fuel (newObj specs { opts with nsimu := k } extra ms data) s false = .ok out ∧
      out.results.chain = rows.map finVec ∧
      ∃ w : Fin (nS flags) → ℝ, ∑ i, ∑ l, w i * sampleCov (rows.take (j - K)) i l * w l < c * ∑ i, w i ^ 2} =
      μ.real {s | ¬ ∀ w, c * ∑ i, w i ^ 2 ≤ w ⬝ᵥ (Matrix.mulVec (histCov (j - K) (Hs (j - K) s).1) w)} := by
    intro j hj
    have := (Finset.mem_Ico.1 hj).2
    rw [collapse_set (fun s => h s fuel) (by omega) c]
  rw [Finset.sum_congr rfl hcol]
  obtain ⟨B, hB, hBb, hgood⟩ := windows_bound (μ := μ) (π := posteriorLaw flags specs q r v)
    (row := fun j s => ((Hs j s).1 j).1) hmr (K := K) (J := J)
    (p := fun j => μ.real {s | ¬ ∀ w, c * ∑ i, w i ^ 2 ≤
      w ⬝ᵥ (Matrix.mulVec (histCov (j - K) (Hs (j - K) s).1) w)}) (fun j => measureReal_nonneg) hu hu01 hδ he
    hmom hn hb (hn₀.trans (by exact_mod_cast hnn))
  refine ⟨fun j s => ((Hs j s).1 j).1, hmr, B, hB, hBb, hgood, fun s => ?_⟩
  obtain ⟨out, rows, ho, hr, hl, hp⟩ := h s fuel
  refine ⟨out, ho, fun j hj => ?_⟩
  rw [hr, List.getElem?_map, hp j (by exact_mod_cast hj) j le_rfl]
  rfl

/-- **C152** credible bands of adaptive runs.  Methods `am` and `dram` with at most two stages (the default), all
sampled parameters adapted, finite limits and a bounded posterior.  Drop a burn-in `b` from the chain and
let `calculate_intervals` evaluate a model with one output at `nsample` rows.  For every `η` there is `A`
such that for all `e, c > 0`, if the number of rows used is large enough and not less than the burn-in,
then except with probability `e` plus `A` times the average over these rows `j` of the probability that the sample
covariance of the first `j - K` rows is in some direction below `c`, the run and the evaluation
succeed and, for all limits between 0 and 100, the bands are one per limit, the wider first, and the band of
limit `l` contains the model response at each output point with posterior probability `l/100`, up to `η`. -/
theorem C152_adaptive_credible {D' R : Type}
    (H : ∀ k : ℤ, 1 < k → AdaptiveProblem U G L specs { opts with nsimu := k } extra ms data q r v)
    (D : IdealRng G (nS flags) μ) (hlim : FiniteLimits flags specs)
    {Z : ℝ} (hZ : ∀ θ, posteriorDensity flags specs q r v θ ≤ Z)
    (hntry : opts.ntry ≤ 2) (hai : 0 < opts.adaptint) (hall : ∀ k, flags k = true → (specs k).adapt = true)
    {η : ℝ} (hη : 0 < η)
    {model : Vec XR N → D' → Except PyErr (ModelOut XR)} {d : D'} {w : ℕ} {g : (Fin (nS flags) → ℝ) → Fin w → ℝ}
    (hg : ∀ i, Measurable fun θ => g θ i) (hmod : GivesColumn specs model d g) (rest : R)
    (obs : ℕ → ℕ → S2Val XR → ModelOut XR → Except PyErr (List XR)) :
    ∃ A : ℝ, 0 ≤ A ∧ ∀ e c : ℝ, 0 < e → 0 < c → ∃ K J n₀ : ℕ, K ≤ J ∧ ∀ k b nsample : ℕ,
      n₀ ≤ min nsample (k - b) → b ≤ min nsample (k - b) →
      ∀ draws : List ℝ, draws.length = nsample → ∀ fuel,
      1 - (e + A * ((∑ j ∈ Finset.Ico J (b + min nsample (k - b)), μ.real {s | ∃ out,
          ∃ rows : List (Fin (nS flags) → ℝ),
          runSimulation U G L fuel (newObj specs { opts with nsimu := k } extra ms data) s false = .ok out ∧
          out.results.chain = rows.map finVec ∧
          ∃ w : Fin (nS flags) → ℝ, ∑ i, ∑ l, w i * sampleCov (rows.take (j - K)) i l * w l < c * ∑ i, w i ^ 2}) /
            (min nsample (k - b) : ℕ))) ≤
      μ.real {s | ∃ out res st, ∃ rows : List (Fin w → ℝ),
        runSimulation U G L fuel (newObj specs { opts with nsimu := k } extra ms data) s false = .ok out ∧
        calculateIntervals (out.results.chain.drop b) ⟨parindOf flags, out.results.theta, rest⟩ d model
          (.inr .none) obs (defineSamplePoints nsample (out.results.chain.drop b).length draws).1 = .ok (res, st) ∧
        st.ci = rows.map (fun y => List.ofFn (finVec y)) ∧
        ∀ limits default, (∀ l ∈ limits.getD default, 0 ≤ l ∧ l ≤ 100) →
          ∃ bands ls, intervalBands rows limits default = .ok bands ∧ ls.Perm (limits.getD default) ∧
            ls.Pairwise (· ≥ ·) ∧
            List.Forall₂ (fun l B => Covers (posteriorLaw flags specs q r v) g (l / 100) η B) ls bands} := by
  have H2 := H 2 (by norm_num)
  obtain ⟨hZ0, hZt, hZS⟩ := posterior_mass (v := v) hlim H2.measurable.1 H2.measurable.2 hZ
  have hprob : IsProbabilityMeasure (posteriorLaw flags specs q r v) := ⟨by
    unfold posteriorLaw
    rw [Measure.smul_apply, smul_eq_mul, ENNReal.inv_mul_cancel hZ0 hZt]⟩
  obtain ⟨x, hx⟩ : ∃ x : Fin (nS flags) → ℝ, ∀ i, (specs (parindOf flags i)).theta0 = .fin (x i) := by
    have := fun i => H2.valid.initial (parindOf flags i)
    choose x hx using this
    exact ⟨x, hx⟩
  obtain ⟨κ, _, E, hE, hEv⟩ := exists_events (π := posteriorLaw flags specs q r v) (η := η / 4) (by positivity)
    (g := fun (i : Fin w) θ => g θ i) hg
  refine ⟨Fintype.card κ * 1024 / (η / 4 / 2) ^ 2, by positivity, fun e c he hc => ?_⟩
  obtain ⟨K, J, n₀, hKJ, h⟩ := adaptive_windows H D hlim hZ hntry hai hall
    (u := fun a => (E a).indicator 1) (fun a => measurable_one.indicator (hE a)) (fun a => indicator_unit (E a))
    (δ := η / 4 / 2) (by positivity) he hc
  obtain ⟨n₁, hn₁⟩ := exists_nat_ge (1 / (η / 2 / 2))
  refine ⟨K, J, n₀ + n₁ + 2, hKJ, fun k b nsample hKn hbn draws hd fuel => ?_⟩
  set n := min nsample (k - b) with hn
  have hnk : n ≤ k - b := min_le_right _ _
  obtain ⟨T, -, B, hB, hBe, hgood, hrun⟩ := h k b n (by omega) (by omega) (by omega) (by omega) hbn fuel
  refine (sub_le_sub_left hBe 1).trans ?_
  rw [← probReal_compl_eq_one_sub hB]
  refine measureReal_mono fun s hs => ?_
  obtain ⟨out, ho, hch⟩ := hrun s
  have hfr := hgood s hs
  obtain ⟨hlen0, -, -, last, -, hlast⟩ := C02_chain_records_moves (H k (by omega)).valid.noRestart ho
  have hlen : (out.results.chain.length : ℤ) = k := hlen0
  have hdl : (out.results.chain.drop b).length = k - b := by rw [List.length_drop]; omega
  obtain ⟨res, st, h1, h2⟩ := credible_rows (startsAt_self hx) hlast hmod rest obs
    (t := fun j => T j s) (b := b) (n := n) (fun j hj => hch _ (by omega)) (samplePoints_length nsample (k - b) draws hd)
  refine ⟨out, res, st, _, ho, by rw [hdl]; exact h1, h2, fun limits default hl => ?_⟩
  have hq := quantiles_of_fractions (π := posteriorLaw flags specs q r v) (η := η / 2) (by positivity) (g := g) (n := n)
    (t := fun j => T (b + j) s) (by omega) (hn₁.trans (by exact_mod_cast (by omega : n₁ ≤ n)))
    (fun i y => by
      have := hEv n (fun j => T (b + j) s) (by omega)
        (fun a => by have := hfr a; rwa [integral_indicator_one (hE a)] at this) i y
      rw [show η / 2 / 2 = η / 4 by ring]
      exact this)
  exact bands_cover hg hη hq hl

end fixed

section joint
variable {σ : Type} [MeasurableSpace σ] {μ : Measure σ} [IsProbabilityMeasure μ] {G : Rng σ XR} {N m : ℕ}
  {flags : Fin N → Bool} {U : UserFuns XR N (nS flags) m} {L : Lapack XR}
  {specs : Fin N → ParamSpec XR} {opts : SimOpts XR}
  {extra : ExtraOpts XR (nS flags)} {ms : ModelSettings XR} {data : Data}
  {q : (Fin (nS flags) → ℝ) → Fin m → ℝ} {r : (Fin (nS flags) → ℝ) → ℝ} {Nobs N0 S20 v : Fin m → ℝ}

/-- the averages of finitely many functions with values in `[0, 1]` with sampled error variances -/
theorem adaptive_joint_windows
    (H : ∀ k : ℤ, 1 < k → AdaptiveJointProblem U G L specs { opts with nsimu := k } extra ms data q r Nobs N0 S20 v)
    (D : IdealRng G (nS flags) μ) (D1 : IdealRng G 1 μ) (hlim : FiniteLimits flags specs) {Z β : ℝ}
    (hbd : BoundedProblem flags specs q r N0 S20 Z β)
    (hntry : opts.ntry ≤ 2) (hai : 0 < opts.adaptint) (hall : ∀ k, flags k = true → (specs k).adapt = true)
    {κ : Type} [Fintype κ] {u : κ → (Fin (nS flags) → ℝ) × (Fin m → ℝ) → ℝ}
    (hu : ∀ a, Measurable (u a)) (hu01 : ∀ a y, 0 ≤ u a y ∧ u a y ≤ 1)
    {δ : ℝ} (hδ : 0 < δ) {e c : ℝ} (he : 0 < e) (hc : 0 < c) :
    ∃ K J n₀ : ℕ, K ≤ J ∧ ∀ k b n : ℕ, 1 < k → b + n ≤ k → n₀ ≤ n → 0 < n → b ≤ n →
      ∃ T : ℕ → σ → (Fin (nS flags) → ℝ) × (Fin m → ℝ), (∀ j, Measurable (T j)) ∧ ∃ B, MeasurableSet B ∧
        μ.real B ≤ e + Fintype.card κ * 1024 / δ ^ 2 *
          ((∑ j ∈ Finset.Ico J (b + n), μ.real {s | ∃ F, ∀ fuel, F ≤ fuel → ∃ out,
          ∃ rows : List (Fin (nS flags) → ℝ),
          runSimulation U G L fuel (newObj specs { opts with nsimu := k } extra ms data) s false = .ok out ∧
          out.results.chain = rows.map finVec ∧
          ∃ w : Fin (nS flags) → ℝ, ∑ i, ∑ l, w i * sampleCov (rows.take (j - K)) i l * w l < c * ∑ i, w i ^ 2}) / n) ∧
        (∀ s, s ∉ B → ∀ a,
          |(∑ j ∈ Finset.range n, u a (T (b + j) s)) / n - ∫ y, u a y ∂jointLaw flags specs q r Nobs N0 S20| < δ) ∧
        ∀ᵐ s ∂μ, (∀ j l, 0 < (T j s).2 l) ∧ ∃ F, ∀ fuel, F ≤ fuel → ∃ out s2,
          runSimulation U G L fuel (newObj specs { opts with nsimu := k } extra ms data) s false = .ok out ∧
          out.results.s2chain = some s2 ∧
          ∀ j : ℕ, j < k → out.results.chain[j]? = some (finVec (T j s).1) ∧ s2[j]? = some (finVec (T j s).2) := by
  have H2 := H 2 (by norm_num)
  obtain ⟨hZ0, hZt, hZS⟩ := joint_mass hlim hbd H2.measurable.1 H2.measurable.2 H2.shapes
  have hprob : IsProbabilityMeasure (jointLaw flags specs q r Nobs N0 S20) := ⟨by
    unfold jointLaw
    rw [Measure.smul_apply, smul_eq_mul, ENNReal.inv_mul_cancel hZ0 hZt]⟩
  obtain ⟨hL, ds, ε, sc, x, draw, hds0, hsc0, hx0, hdraw, hproc⟩ := adaptive_joint_facts H D D1 hall
  have he' : 0 < e * δ ^ 2 / (4096 * ((Fintype.card κ : ℕ) + 1 : ℝ)) := by positivity
  obtain ⟨K, J, hKJ, hmain⟩ := joint_weighted D (specs := specs) (ds := ds) (ntry := opts.ntry) H2.measurable.1
    H2.measurable.2 hds0 hntry H2.shapes H2.rates hdraw hlim hbd hx0 hL hai ε hsc0 he' hc
  obtain ⟨n₀, hn₀⟩ := exists_nat_ge (512 * (Fintype.card κ : ℝ) * (1 + 2 * K + 2 * J) / (δ ^ 2 * e))
  refine ⟨K, J, n₀, hKJ, fun k b n hk hbk hnn hn hb => ?_⟩
  obtain ⟨R0, Q, hvpos, h⟩ := hproc k (by exact_mod_cast hk)
  have hmom := moment_of_weighted (π := jointLaw flags specs q r Nobs N0 S20)
    (measurable_jointMove D (specs := specs) (N0 := N0) (S20 := S20) (ds := ds) (ntry := opts.ntry) H2.measurable.1
      H2.measurable.2 hdraw.measurable)
    (fresh_jointMove D H2.measurable.1 H2.measurable.2 hds0 H2.shapes hdraw)
    (next := nextOf Prod.fst hL opts.adaptint Q ε sc)
    (fun j => (measurable_nextFactor _ _ _ _ _ _ j).comp (measurable_valuesOf measurable_fst)) (x, v) R0
    (fun j => add_nonneg he'.le measureReal_nonneg) (hmain Q R0 v)
  have hmr := measurable_joint_row D (specs := specs) (N0 := N0) (S20 := S20) (ntry := opts.ntry) (adaptint := opts.adaptint)
    H2.measurable.1 H2.measurable.2 hds0 H2.shapes hdraw hL Q ε sc (x, v) R0
  set Hs := histAfter (jointMove D specs q r N0 S20 draw ds opts.ntry)
    (nextOf Prod.fst hL opts.adaptint Q ε sc) (x, v) R0 with hHs
  have hcol : ∀ j ∈ Finset.Ico J (b + n), μ.real {s | ∃ F, ∀ fuel, F ≤ fuel → ∃ out,
          ∃ rows : List (Fin (nS flags) → ℝ),
          runSimulation U G L fuel (newObj specs { opts with nsimu := k } extra ms data) s false = .ok out ∧
          out.results.chain = rows.map finVec ∧
          ∃ w : Fin (nS flags) → ℝ, ∑ i, ∑ l, w i * sampleCov (rows.take (j - K)) i l * w l < c * ∑ i, w i ^ 2} =
      μ.real {s | ¬ ∀ w, c * ∑ i, w i ^ 2 ≤
        w ⬝ᵥ (Matrix.mulVec (histCov (j - K) (valuesOf Prod.fst (Hs (j - K) s).1)) w)} := by
    intro j hj
    have := (Finset.mem_Ico.1 hj).2
    exact collapse_ae h (by omega) c
  rw [Finset.sum_congr rfl hcol]
  obtain ⟨B, hB, hBb, hgood⟩ := windows_bound (μ := μ) (π := jointLaw flags specs q r Nobs N0 S20)
    (row := fun j s => ((Hs j s).1 j).1) hmr (K := K) (J := J)
    (p := fun j => μ.real {s | ¬ ∀ w, c * ∑ i, w i ^ 2 ≤
      w ⬝ᵥ (Matrix.mulVec (histCov (j - K) (valuesOf Prod.fst (Hs (j - K) s).1)) w)})
    (fun j => measureReal_nonneg) hu hu01 hδ he hmom hn hb (hn₀.trans (by exact_mod_cast hnn))
  refine ⟨fun j s => ((Hs j s).1 j).1, hmr, B, hB, hBb, hgood, ?_⟩
  filter_upwards [h, hvpos] with s hs hv
  obtain ⟨F, hF⟩ := hs
  refine ⟨hv, F, fun fuel hfu => ?_⟩
  obtain ⟨out, rows, s2, ho, hr, hc, hp⟩ := hF fuel hfu
  refine ⟨out, s2, ho, hc, fun j hj => ⟨?_, (hp j (by exact_mod_cast hj)).2⟩⟩
  rw [hr, List.getElem?_map, (hp j (by exact_mod_cast hj)).1 j le_rfl]
  rfl

/-- **C152** with sampled error variances. -/
theorem C152_adaptive_credible_joint {D' R : Type}
    (H : ∀ k : ℤ, 1 < k → AdaptiveJointProblem U G L specs { opts with nsimu := k } extra ms data q r Nobs N0 S20 v)
    (D : IdealRng G (nS flags) μ) (D1 : IdealRng G 1 μ) (hlim : FiniteLimits flags specs) {Z β : ℝ}
    (hbd : BoundedProblem flags specs q r N0 S20 Z β)
    (hntry : opts.ntry ≤ 2) (hai : 0 < opts.adaptint) (hall : ∀ k, flags k = true → (specs k).adapt = true)
    {η : ℝ} (hη : 0 < η)
    {model : Vec XR N → D' → Except PyErr (ModelOut XR)} {d : D'} {w : ℕ} {g : (Fin (nS flags) → ℝ) → Fin w → ℝ}
    (hg : ∀ i, Measurable fun θ => g θ i) (hmod : GivesColumn specs model d g) (rest : R)
    (obs : ℕ → ℕ → S2Val XR → ModelOut XR → Except PyErr (List XR)) :
    ∃ A : ℝ, 0 ≤ A ∧ ∀ e c : ℝ, 0 < e → 0 < c → ∃ K J n₀ : ℕ, K ≤ J ∧ ∀ k b nsample : ℕ,
      n₀ ≤ min nsample (k - b) → b ≤ min nsample (k - b) →
      ∀ draws : List ℝ, draws.length = nsample →
      1 - (e + A * ((∑ j ∈ Finset.Ico J (b + min nsample (k - b)), μ.real {s | ∃ F, ∀ fuel, F ≤ fuel → ∃ out,
          ∃ rows : List (Fin (nS flags) → ℝ),
          runSimulation U G L fuel (newObj specs { opts with nsimu := k } extra ms data) s false = .ok out ∧
          out.results.chain = rows.map finVec ∧
          ∃ w : Fin (nS flags) → ℝ, ∑ i, ∑ l, w i * sampleCov (rows.take (j - K)) i l * w l < c * ∑ i, w i ^ 2}) /
            (min nsample (k - b) : ℕ))) ≤
      μ.real {s | ∃ F, ∀ fuel, F ≤ fuel → ∃ out res st, ∃ rows : List (Fin w → ℝ),
        runSimulation U G L fuel (newObj specs { opts with nsimu := k } extra ms data) s false = .ok out ∧
        calculateIntervals (out.results.chain.drop b) ⟨parindOf flags, out.results.theta, rest⟩ d model
          (.inr .none) obs (defineSamplePoints nsample (out.results.chain.drop b).length draws).1 = .ok (res, st) ∧
        st.ci = rows.map (fun y => List.ofFn (finVec y)) ∧
        ∀ limits default, (∀ l ∈ limits.getD default, 0 ≤ l ∧ l ≤ 100) →
          ∃ bands ls, intervalBands rows limits default = .ok bands ∧ ls.Perm (limits.getD default) ∧
            ls.Pairwise (· ≥ ·) ∧
            List.Forall₂ (fun l B => Covers (jointLaw flags specs q r Nobs N0 S20) (fun z => g z.1) (l / 100) η B)
              ls bands} := by
  have H2 := H 2 (by norm_num)
  obtain ⟨hZ0, hZt, hZS⟩ := joint_mass hlim hbd H2.measurable.1 H2.measurable.2 H2.shapes
  have hprob : IsProbabilityMeasure (jointLaw flags specs q r Nobs N0 S20) := ⟨by
    unfold jointLaw
    rw [Measure.smul_apply, smul_eq_mul, ENNReal.inv_mul_cancel hZ0 hZt]⟩
  obtain ⟨x, hx⟩ : ∃ x : Fin (nS flags) → ℝ, ∀ i, (specs (parindOf flags i)).theta0 = .fin (x i) := by
    have := fun i => H2.valid.initial (parindOf flags i)
    choose x hx using this
    exact ⟨x, hx⟩
  have hg' : ∀ i, Measurable fun z : (Fin (nS flags) → ℝ) × (Fin m → ℝ) => g z.1 i := fun i =>
    (hg i).comp measurable_fst
  obtain ⟨κ, _, E, hE, hEv⟩ := exists_events (π := jointLaw flags specs q r Nobs N0 S20) (η := η / 4) (by positivity)
    (g := fun (i : Fin w) z => g z.1 i) hg'
  refine ⟨Fintype.card κ * 1024 / (η / 4 / 2) ^ 2, by positivity, fun e c he hc => ?_⟩
  obtain ⟨K, J, n₀, hKJ, h⟩ := adaptive_joint_windows H D D1 hlim hbd hntry hai hall
    (u := fun a => (E a).indicator 1) (fun a => measurable_one.indicator (hE a)) (fun a => indicator_unit (E a))
    (δ := η / 4 / 2) (by positivity) he hc
  obtain ⟨n₁, hn₁⟩ := exists_nat_ge (1 / (η / 2 / 2))
  refine ⟨K, J, n₀ + n₁ + 2, hKJ, fun k b nsample hKn hbn draws hd => ?_⟩
  set n := min nsample (k - b) with hn
  have hnk : n ≤ k - b := min_le_right _ _
  obtain ⟨T, -, B, hB, hBe, hgood, hrun⟩ := h k b n (by omega) (by omega) (by omega) (by omega) hbn
  refine (sub_le_sub_left hBe 1).trans ?_
  rw [← probReal_compl_eq_one_sub hB]
  refine ENNReal.toReal_mono (measure_ne_top _ _) (measure_mono_ae ?_)
  filter_upwards [hrun] with s hs hsB
  obtain ⟨-, F, hF⟩ := hs
  refine ⟨F, fun fuel hf => ?_⟩
  obtain ⟨out, s2, ho, -, hch⟩ := hF fuel hf
  have hfr := hgood s hsB
  obtain ⟨hlen0, -, -, last, -, hlast⟩ := C02_chain_records_moves (H k (by omega)).valid.noRestart ho
  have hlen : (out.results.chain.length : ℤ) = k := hlen0
  have hdl : (out.results.chain.drop b).length = k - b := by rw [List.length_drop]; omega
  obtain ⟨res, st, h1, h2⟩ := credible_rows (startsAt_self hx) hlast hmod rest obs
    (t := fun j => (T j s).1) (b := b) (n := n) (fun j hj => (hch _ (by omega)).1)
    (samplePoints_length nsample (k - b) draws hd)
  refine ⟨out, res, st, _, ho, by rw [hdl]; exact h1, h2, fun limits default hl => ?_⟩
  have hq := quantiles_of_fractions (π := jointLaw flags specs q r Nobs N0 S20) (η := η / 2) (by positivity)
    (g := fun z => g z.1) (n := n)
    (t := fun j => T (b + j) s) (by omega) (hn₁.trans (by exact_mod_cast (by omega : n₁ ≤ n)))
    (fun i y => by
      have := hEv n (fun j => T (b + j) s) (by omega)
        (fun a => by have := hfr a; rwa [integral_indicator_one (hE a)] at this) i y
      rw [show η / 2 / 2 = η / 4 by ring]
      exact this)
  exact bands_cover hg' hη hq hl

end joint

theorem XRun.model_responds_limited : GivesColumn (flags := XRun.flags) (XRun.specs true) XRun.model ()
    fun θ => ![θ ⟨0, by decide⟩, θ ⟨0, by decide⟩ * θ ⟨0, by decide⟩, 5] := by
  intro θ w hw
  have h0 : w 0 = .fin (θ ⟨0, by decide⟩) := by
    have h1 : ([w 0] : List XR) = List.ofFn (finVec θ) := hw.1
    have h2 := congrArg (fun l : List XR => l[0]?) h1
    rw [List.getElem?_ofFn, dif_pos (by decide)] at h2
    exact Option.some.inj h2
  exact ⟨_, rfl, rfl, by simp only [ModelOut.flat, h0]; rfl⟩

/-- C152 for a normal posterior cut at its limits, method `dram`: the 90 per cent band at the output point θ². -/
example : ∃ A : ℝ, 0 ≤ A ∧ ∃ K J n₀ : ℕ, K ≤ J ∧ ∀ k nsample : ℕ, n₀ ≤ nsample → 1000 ≤ nsample →
    nsample + 1000 ≤ k → ∀ draws : List ℝ, draws.length = nsample →
    1 - (1 / 100 + A * ((∑ j ∈ Finset.Ico J (1000 + nsample), (coinLaw (nS XRun.flags)).real
        {s | ∃ out, ∃ rows : List (Fin (nS XRun.flags) → ℝ),
          runSimulation XRun.user (coinRng (nS XRun.flags)) choleskyLapack 0
            (newObj (m := 1) (XRun.specs true) (defineSimulationOptions { nsimu := k, method := .dram })
              (XRun.extra 1 1) XRun.settings XRun.data) s false = .ok out ∧
          out.results.chain = rows.map finVec ∧
          ∃ w : Fin (nS XRun.flags) → ℝ, ∑ i, ∑ l, w i * sampleCov (rows.take (j - K)) i l * w l <
            1 / 10 * ∑ i, w i ^ 2}) / nsample)) ≤
      (coinLaw (nS XRun.flags)).real {s | ∃ out res st, ∃ rows : List (Fin 3 → ℝ), ∃ lo90 hi90,
        runSimulation XRun.user (coinRng (nS XRun.flags)) choleskyLapack 0
          (newObj (m := 1) (XRun.specs true) (defineSimulationOptions { nsimu := k, method := .dram })
            (XRun.extra 1 1) XRun.settings XRun.data) s false = .ok out ∧
        calculateIntervals (out.results.chain.drop 1000) ⟨parindOf XRun.flags, out.results.theta, ()⟩ ()
          XRun.model (.inr .none) (fun _ _ _ y => .ok y.flat)
          (defineSamplePoints nsample (out.results.chain.drop 1000).length draws).1 = .ok (res, st) ∧
        st.ci = rows.map (fun y => List.ofFn (finVec y)) ∧
        intervalBands rows (some [90]) [95] = .ok [[lo90, hi90]] ∧
        90 / 100 - 1 / 100 ≤ (posteriorLaw (m := 1) XRun.flags (XRun.specs true)
            (fun θ _ => θ ⟨0, by decide⟩ * θ ⟨0, by decide⟩) (fun _ => 0) (fun _ => 1)).real
          {θ | lo90 1 ≤ θ ⟨0, by decide⟩ * θ ⟨0, by decide⟩ ∧ θ ⟨0, by decide⟩ * θ ⟨0, by decide⟩ ≤ hi90 1}} := by
  obtain ⟨A, hA, h⟩ := C152_adaptive_credible
    (opts := defineSimulationOptions { nsimu := 2, method := .dram }) XRun.adaptiveProblem (coinIdeal _)
    XRun.finiteLimits (Z := 1) XRun.density_le (show (2 : ℤ) ≤ 2 by decide) (show (0 : ℤ) < 100 by decide)
    (fun _ _ => rfl) (η := 1 / 100) (by norm_num) XRun.model_measurable XRun.model_responds_limited ()
    fun _ _ _ y => .ok y.flat
  obtain ⟨K, J, n₀, h0, h⟩ := h (1 / 100) (1 / 10) (by norm_num) (by norm_num)
  refine ⟨A, hA, K, J, n₀, h0, fun k nsample h1 h2 h3 draws hd => ?_⟩
  have hmin : min nsample (k - 1000) = nsample := by omega
  have := h k 1000 nsample (by omega) (by omega) draws hd 0
  rw [hmin] at this
  refine this.trans (measureReal_mono fun s hs => ?_)
  obtain ⟨out, res, st, rows, ho, hc, hr, hb⟩ := hs
  obtain ⟨bands, ls, hB, hp, -, hf⟩ := hb (some [90]) [95] (by
    intro l hl
    simp only [Option.getD_some, List.mem_cons, List.not_mem_nil, or_false] at hl
    subst hl; norm_num)
  obtain rfl := List.perm_singleton.1 hp
  cases hf with
  | cons f1 hf => cases hf with
    | nil =>
      obtain ⟨lo90, hi90, rfl, h90⟩ := f1
      exact ⟨out, res, st, rows, lo90, hi90, ho, hc, hr, hB, (h90 1).1⟩

/-- C152 with a sampled error variance: the default band of 95 per cent. -/
example : ∃ A : ℝ, 0 ≤ A ∧ ∃ K J n₀ : ℕ, K ≤ J ∧ ∀ k nsample : ℕ, n₀ ≤ nsample → 1000 ≤ nsample →
    nsample + 1000 ≤ k → ∀ draws : List ℝ, draws.length = nsample →
    1 - (1 / 100 + A * ((∑ j ∈ Finset.Ico J (1000 + nsample), (coinLaw (nS XRun.flags)).real
        {s | ∃ F, ∀ fuel, F ≤ fuel → ∃ out, ∃ rows : List (Fin (nS XRun.flags) → ℝ),
          runSimulation XRun.user (coinRng (nS XRun.flags)) choleskyLapack fuel
            (newObj (m := 1) (XRun.specs true)
              (defineSimulationOptions { nsimu := k, method := .dram, updatesigma := true })
              (XRun.extra 1 1) (XRun.settingsAt fun _ => 2) XRun.data) s false = .ok out ∧
          out.results.chain = rows.map finVec ∧
          ∃ w : Fin (nS XRun.flags) → ℝ, ∑ i, ∑ l, w i * sampleCov (rows.take (j - K)) i l * w l <
            1 / 10 * ∑ i, w i ^ 2}) / nsample)) ≤
      (coinLaw (nS XRun.flags)).real {s | ∃ F, ∀ fuel, F ≤ fuel → ∃ out res st, ∃ rows : List (Fin 3 → ℝ), ∃ bands,
        runSimulation XRun.user (coinRng (nS XRun.flags)) choleskyLapack fuel
          (newObj (m := 1) (XRun.specs true)
            (defineSimulationOptions { nsimu := k, method := .dram, updatesigma := true })
            (XRun.extra 1 1) (XRun.settingsAt fun _ => 2) XRun.data) s false = .ok out ∧
        calculateIntervals (out.results.chain.drop 1000) ⟨parindOf XRun.flags, out.results.theta, ()⟩ ()
          XRun.model (.inr .none) (fun _ _ _ y => .ok y.flat)
          (defineSamplePoints nsample (out.results.chain.drop 1000).length draws).1 = .ok (res, st) ∧
        st.ci = rows.map (fun y => List.ofFn (finVec y)) ∧
        intervalBands rows none [95] = .ok [bands] ∧
        Covers (jointLaw (m := 1) XRun.flags (XRun.specs true) (fun θ _ => θ ⟨0, by decide⟩ * θ ⟨0, by decide⟩)
          (fun _ => 0) (fun _ => 5) (fun _ => 1) (fun _ => 1))
          (fun z => ![z.1 ⟨0, by decide⟩, z.1 ⟨0, by decide⟩ * z.1 ⟨0, by decide⟩, 5]) (95 / 100) (1 / 100) bands} := by
  have D1 : IdealRng (coinRng (nS XRun.flags)) 1 (coinLaw (nS XRun.flags)) := by
    rw [XRun.nS_flags]; exact coinIdeal 1
  obtain ⟨A, hA, h⟩ := C152_adaptive_credible_joint
    (opts := defineSimulationOptions { nsimu := 2, method := .dram, updatesigma := true }) XRun.adaptiveJointProblem
    (coinIdeal _) D1 XRun.finiteLimits XRun.boundedProblem (show (2 : ℤ) ≤ 2 by decide)
    (show (0 : ℤ) < 100 by decide) (fun _ _ => rfl) (η := 1 / 100) (by norm_num) XRun.model_measurable
    XRun.model_responds_limited () fun _ _ _ y => .ok y.flat
  obtain ⟨K, J, n₀, h0, h⟩ := h (1 / 100) (1 / 10) (by norm_num) (by norm_num)
  refine ⟨A, hA, K, J, n₀, h0, fun k nsample h1 h2 h3 draws hd => ?_⟩
  have hmin : min nsample (k - 1000) = nsample := by omega
  have := h k 1000 nsample (by omega) (by omega) draws hd
  rw [hmin] at this
  refine this.trans (measureReal_mono fun s hs => ?_)
  obtain ⟨F, hs⟩ := hs
  refine ⟨F, fun fuel hfuel => ?_⟩
  obtain ⟨out, res, st, rows, ho, hc, hr, hb⟩ := hs fuel hfuel
  obtain ⟨bands, ls, hB, hp, -, hf⟩ := hb none [95] (by
    intro l hl
    simp only [Option.getD_none, List.mem_cons, List.not_mem_nil, or_false] at hl
    subst hl; norm_num)
  obtain rfl := List.perm_singleton.1 hp
  cases hf with
  | cons f1 hf => cases hf with
    | nil => exact ⟨out, res, st, rows, _, ho, hc, hr, hB, f1⟩

end Verif
