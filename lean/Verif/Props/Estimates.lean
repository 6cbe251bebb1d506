import Verif.Lemmas.Estimates
import Verif.Props.JointUnbounded

/-! # The reported statistics estimate the posterior

C116: the means and standard deviations of `chainstats` approach those of the posterior.  C117: the Gelman-Rubin
factors of several chains approach 1 and their within-chain variances the posterior variances.  The limits may be
infinite and the density unbounded; the second moments have to be finite. -/

set_option linter.unusedSectionVars false

namespace Verif
open MeasureTheory Function ProbabilityTheory
open scoped ENNReal Matrix

/-- mean of `f` under the probability proportional to `ν` -/
noncomputable def meanUnder {X : Type} [MeasurableSpace X] (ν : Measure X) (f : X → ℝ) : ℝ :=
  (∫ y, f y ∂ν) / ν.real Set.univ

/-- variance of `f` under the probability proportional to `ν` -/
noncomputable def varUnder {X : Type} [MeasurableSpace X] (ν : Measure X) (f : X → ℝ) : ℝ :=
  (∫ y, (f y - meanUnder ν f) ^ 2 ∂ν) / ν.real Set.univ

theorem integral_normalized {X : Type} [MeasurableSpace X] (ν : Measure X) (f : X → ℝ) :
    ∫ y, f y ∂((ν Set.univ)⁻¹ • ν) = meanUnder ν f := by
  unfold meanUnder Measure.real
  rw [integral_smul_measure, ENNReal.toReal_inv, smul_eq_mul, inv_mul_eq_div]

theorem variance_normalized {X : Type} [MeasurableSpace X] (ν : Measure X) (f : X → ℝ) :
    ∫ y, (f y - ∫ z, f z ∂((ν Set.univ)⁻¹ • ν)) ^ 2 ∂((ν Set.univ)⁻¹ • ν) = varUnder ν f := by
  rw [integral_normalized, integral_normalized]
  rfl

theorem rows_eq {F : Type} {n k : ℕ} {chain : List (Vec F n)} {g : ℕ → Vec F n} (hl : chain.length = k)
    (h : ∀ j, j < k → chain[j]? = some (g j)) : chain = List.ofFn fun j : Fin k => g j := by
  apply List.ext_getElem?
  intro j
  by_cases hj : j < k
  · rw [h j hj, List.getElem?_ofFn, dif_pos hj]
  · rw [List.getElem?_eq_none (by omega), List.getElem?_eq_none (by rw [List.length_ofFn]; omega)]

theorem hyperplane_withDensity {n : ℕ} (d : (Fin n → ℝ) → ℝ≥0∞) (i : Fin n) (c : ℝ) :
    (volume : Measure (Fin n → ℝ)).withDensity d {θ | θ i = c} = 0 :=
  withDensity_absolutelyContinuous _ _ 
    (by rw [volume_pi]; exact Measure.pi_hyperplane (fun _ : Fin n => (volume : Measure ℝ)) i c)

section fixed
variable {σ : Type} [MeasurableSpace σ] {μ : Measure σ} {G : Rng σ XR} {N m : ℕ} {flags : Fin N → Bool}
  [IsProbabilityMeasure μ] {U : UserFuns XR N (nS flags) m} {L : Lapack XR}
  {specs : Fin N → ParamSpec XR} {sp : (Fin (nS flags) → ℝ) → Fin N → ParamSpec XR} {opts : SimOpts XR}
  {extra : ExtraOpts XR (nS flags)} {ms : ModelSettings XR} {data : Data}
  {q : (Fin (nS flags) → ℝ) → Fin m → ℝ} {r : (Fin (nS flags) → ℝ) → ℝ} {v : Fin m → ℝ}

/-- **C116** the reported means and standard deviations estimate those of the posterior: from every start within the
limits and for all long enough runs, with probability at least `1 - ε` the run succeeds, `chainstats` of
its chain gives a table, and for every parameter with finite posterior second moment the reported mean and standard
deviation are within `η` of the posterior mean and standard deviation. -/
theorem C116_chainstats
    (H : ∀ k : ℤ, 1 < k → FixedProblem U G L specs sp { opts with nsimu := k } extra ms data q r v)
    (D : IdealRng G (nS flags) μ) (hZ0 : posteriorMeasure flags specs q r v Set.univ ≠ 0)
    (hZt : posteriorMeasure flags specs q r v Set.univ ≠ ⊤) {x : Fin (nS flags) → ℝ}
    (hx : InLimits flags specs (finVec x)) {η ε : ℝ} (hη : 0 < η) (hε : 0 < ε)
    (hann : ℕ → ℕ → XR) (cdf : XR → XR) {iact : List XR → Except PyErr (XR × ℕ)}
    (hia : ∀ l, l ≠ [] → ∃ a, iact l = .ok a) :
    ∃ K : ℕ, ∀ k : ℕ, K ≤ k → ∀ fuel,
      1 - ε ≤ μ.real {s | ∃ out S,
        runSimulation U G L fuel (newObj (sp x) { opts with nsimu := k } extra ms data) s false = .ok out ∧
        chainstats (K := ℚ) hann cdf iact (some out.results.chain) = .ok (some S) ∧
        ∀ i, Integrable (fun θ => θ i ^ 2) (posteriorMeasure flags specs q r v) →
          ∃ mean std, S.mean i = .fin mean ∧ S.std i = .fin std ∧
            |mean - meanUnder (posteriorMeasure flags specs q r v) fun θ => θ i| < η ∧
            |std - Real.sqrt (varUnder (posteriorMeasure flags specs q r v) fun θ => θ i)| < η} := by
  classical
  obtain ⟨hS0, T, hT, hsp, hkeep, hrun⟩ := fixed_harris H D hZ0 hZt
  let ι := {i : Fin (nS flags) // Integrable (fun θ => θ i ^ 2) (posteriorMeasure flags specs q r v)}
  choose d hd0 hd using fun i : ι => sqrt_near (meanUnder (posteriorMeasure flags specs q r v) fun θ => θ i.1)
    (varUnder (posteriorMeasure flags specs q r v) fun θ => θ i.1) hη
  obtain ⟨δ, hδ, hδd⟩ := exists_common hd0
  obtain ⟨K, hK⟩ := hT.moments (measurableSet_inLimits specs) hsp
    (fun y hy => ae_of_all _ fun s => hkeep y hy s) hS0 hx (lt_min hδ hη) hε
    (g := fun (i : ι) θ => θ i.1) (fun i => measurable_pi_apply _)
    (fun i => i.2.smul_measure (ENNReal.inv_ne_top.2 hZ0))
  refine ⟨K + 40, fun k hk fuel => ?_⟩
  obtain ⟨B, hB, hBε, hgood⟩ := hK k (by omega)
  calc 1 - ε ≤ 1 - μ.real B := by linarith
    _ = μ.real Bᶜ := (probReal_compl_eq_one_sub hB).symm
    _ ≤ _ := by
      refine measureReal_mono fun s hs => ?_
      obtain ⟨out, ho, hr⟩ := hrun k (by omega) x hx s fuel
      have hlen : (out.results.chain.length : ℤ) = k :=
        (C02_chain_records_moves ((H k (by omega)).valid x hx).noRestart ho).1
      have hch := rows_eq (k := k) (by exact_mod_cast hlen) fun j hj => hr j (by exact_mod_cast hj)
      obtain ⟨S, hS, hm⟩ := chainstats_moments hann cdf iact hia (by omega) (fun j => (T^[j] (x, s)).1) hch
      refine ⟨out, S, ho, hS, fun i hi => ⟨_, _, (hm i).1, (hm i).2, ?_, ?_⟩⟩
      · have := (hgood s hs ⟨i, hi⟩).1
        unfold posteriorLaw at this
        rw [integral_normalized] at this
        exact this.trans_le (min_le_right _ _)
      · obtain ⟨h1, h2⟩ := hgood s hs ⟨i, hi⟩
        unfold posteriorLaw at h1 h2
        rw [integral_normalized] at h1
        rw [variance_normalized, integral_normalized] at h2
        exact hd ⟨i, hi⟩ _ _ (h1.trans_le ((min_le_left _ _).trans (hδd _)))
          (h2.trans_le ((min_le_left _ _).trans (hδd _)))

/-- **C117** the Gelman-Rubin factors approach 1: for any number of chains from any starts within the limits, with
generators that each have the law of an ideal one but may depend on each other, and for all long enough runs, with
probability at least `1 - ε` all runs succeed, `gelman_rubin` gives one entry per parameter, and for every parameter
with finite posterior second moment the factor is within `η` of 1 and both variance estimates are within `η` of
the posterior variance. -/
theorem C117_gelman_rubin
    (H : ∀ k : ℤ, 1 < k → FixedProblem U G L specs sp { opts with nsimu := k } extra ms data q r v)
    (D : IdealRng G (nS flags) μ) (hZ0 : posteriorMeasure flags specs q r v Set.univ ≠ 0)
    (hZt : posteriorMeasure flags specs q r v Set.univ ≠ ⊤) {M : ℕ} (hM : 2 ≤ M) {x : Fin M → Fin (nS flags) → ℝ}
    (hx : ∀ c, InLimits flags specs (finVec (x c))) {Ω : Type} [MeasurableSpace Ω] {P : Measure Ω}
    [IsProbabilityMeasure P] {st : Fin M → Ω → σ} (hst : ∀ c, MeasurePreserving (st c) P μ)
    {η ε : ℝ} (hη : 0 < η) (hε : 0 < ε) :
    ∃ K : ℕ, ∀ k : ℕ, K ≤ k → ∀ fuel,
      1 - ε ≤ P.real {ω | ∃ out : Fin M → RunOut XR σ flags m, ∃ rs,
        (∀ c, runSimulation U G L fuel (newObj (sp (x c)) { opts with nsimu := k } extra ms data) (st c ω) false =
          .ok (out c)) ∧
        gelmanRubin (List.ofFn fun c => (out c).results.chain) = .ok rs ∧ rs.length = nS flags ∧
        ∀ i : Fin (nS flags), Integrable (fun θ => θ i ^ 2) (posteriorMeasure flags specs q r v) →
          ∃ e R W V, rs[(i : ℕ)]? = some e ∧ e.R = .fin R ∧ e.W = .fin W ∧ e.V = .fin V ∧ |R - 1| < η ∧
            |W - varUnder (posteriorMeasure flags specs q r v) fun θ => θ i| < η ∧
            |V - varUnder (posteriorMeasure flags specs q r v) fun θ => θ i| < η} := by
  classical
  obtain ⟨hS0, T, hT, hsp, hkeep, hrun⟩ := fixed_harris H D hZ0 hZt
  have hprob := hT.prob
  let ι := {i : Fin (nS flags) // Integrable (fun θ => θ i ^ 2) (posteriorMeasure flags specs q r v)}
  have hι : ∀ i : ι, Integrable (fun θ => θ i.1 ^ 2) (posteriorLaw flags specs q r v) := fun i =>
    i.2.smul_measure (ENNReal.inv_ne_top.2 hZ0)
  have hv : ∀ i : ι, 0 < varUnder (posteriorMeasure flags specs q r v) fun θ => θ i.1 := fun i => by
    have h1 := variance_pos (g := fun θ : Fin (nS flags) → ℝ => θ i.1) (measurable_pi_apply _) (hι i) fun c => by
      unfold posteriorLaw posteriorMeasure
      rw [Measure.smul_apply, hyperplane_withDensity, smul_zero]
    unfold posteriorLaw at h1
    rwa [variance_normalized] at h1
  choose d hd0 Kd hKd2 hd using fun i : ι => psrf_near hM
    (meanUnder (posteriorMeasure flags specs q r v) fun θ => θ i.1) (hv i) hη
  obtain ⟨δ, hδ, hδd⟩ := exists_common hd0
  have hM0 : (0 : ℝ) < M := by exact_mod_cast (by omega : 0 < M)
  choose K hK using fun c => hT.moments (measurableSet_inLimits specs) hsp
    (fun y hy => ae_of_all _ fun s => hkeep y hy s) hS0 (hx c) hδ (div_pos hε hM0)
    (g := fun (i : ι) θ => θ i.1) (fun i => measurable_pi_apply _) hι
  refine ⟨∑ c, K c + ∑ i, Kd i + 2, fun k hk fuel => ?_⟩
  have hkc : ∀ c, K c ≤ k := fun c =>
    (Finset.single_le_sum (f := K) (fun _ _ => Nat.zero_le _) (Finset.mem_univ c)).trans (by omega)
  have hki : ∀ i, Kd i ≤ k := fun i =>
    (Finset.single_le_sum (f := Kd) (fun _ _ => Nat.zero_le _) (Finset.mem_univ i)).trans (by omega)
  choose B hB hBε hgood using fun c => hK c k (hkc c)
  have hBm : MeasurableSet (⋃ c, st c ⁻¹' B c) := MeasurableSet.iUnion fun c => (hst c).measurable (hB c)
  have hPB : P.real (⋃ c, st c ⁻¹' B c) ≤ ε := by
    calc _ ≤ ∑ c, P.real (st c ⁻¹' B c) := measureReal_iUnion_fintype_le _
      _ = ∑ c, μ.real (B c) := Finset.sum_congr rfl fun c _ => by
          unfold Measure.real
          rw [(hst c).measure_preimage (hB c).nullMeasurableSet]
      _ ≤ ∑ _c : Fin M, ε / M := Finset.sum_le_sum fun c _ => hBε c
      _ = ε := by simp; field_simp
  calc 1 - ε ≤ 1 - P.real (⋃ c, st c ⁻¹' B c) := by linarith
    _ = P.real (⋃ c, st c ⁻¹' B c)ᶜ := (probReal_compl_eq_one_sub hBm).symm
    _ ≤ _ := by
      refine measureReal_mono fun ω hω => ?_
      have hω' : ∀ c, st c ω ∉ B c := by simpa using hω
      choose out ho hr using fun c => hrun k (by omega) (x c) (hx c) (st c ω) fuel
      have hch : ∀ c, (out c).results.chain = List.ofFn fun j : Fin k => finVec (T^[j] (x c, st c ω)).1 := fun c => by
        have hlen : ((out c).results.chain.length : ℤ) = k :=
          (C02_chain_records_moves ((H k (by omega)).valid _ (hx c)).noRestart (ho c)).1
        exact rows_eq (g := fun j => finVec (T^[j] (x c, st c ω)).1) (by exact_mod_cast hlen)
          fun j hj => hr c j (by exact_mod_cast hj)
      obtain ⟨rs, hrs, hlen, hcol⟩ := gelmanRubin_columns hM (k := k) (by omega)
        (fun c j => (T^[(j : ℕ)] (x c, st c ω)).1)
        (chains := List.ofFn fun c => (out c).results.chain) (by simp only [hch])
      refine ⟨out, rs, ho, hrs, hlen, fun i hi => ?_⟩
      obtain ⟨e, he, hpe⟩ := hcol i
      obtain ⟨e', R, W, V, hpe', hR, hW, hV, h1, h2, h3⟩ := hd ⟨i, hi⟩ k (hki _)
        (fun j c => (T^[(j : ℕ)] (x c, st c ω)).1 i) fun c => by
          obtain ⟨g1, g2⟩ := hgood c _ (hω' c) ⟨i, hi⟩
          unfold posteriorLaw at g1 g2
          rw [integral_normalized] at g1
          rw [variance_normalized, integral_normalized] at g2
          rw [avg_range fun j => (T^[j] (x c, st c ω)).1 i, avg_range fun j => (T^[j] (x c, st c ω)).1 i ^ 2]
          exact ⟨g1.trans_le (hδd _), g2.trans_le (hδd _)⟩
      obtain rfl : e = e' := Except.ok.inj (hpe.symm.trans hpe')
      exact ⟨e, R, W, V, he, hR, hW, hV, h1, h2, h3⟩

end fixed

section joint
variable {σ : Type} [MeasurableSpace σ] {μ : Measure σ} [IsProbabilityMeasure μ] {G : Rng σ XR} {N m : ℕ}
  {flags : Fin N → Bool} {U : UserFuns XR N (nS flags) m} {L : Lapack XR}
  {specs : Fin N → ParamSpec XR} {sp : (Fin (nS flags) → ℝ) → Fin N → ParamSpec XR} {opts : SimOpts XR}
  {extra : ExtraOpts XR (nS flags)} {ms : (Fin m → ℝ) → ModelSettings XR} {data : Data}
  {q : (Fin (nS flags) → ℝ) → Fin m → ℝ} {r : (Fin (nS flags) → ℝ) → ℝ} {Nobs N0 S20 : Fin m → ℝ}
  {dom : Set ((Fin (nS flags) → ℝ) × (Fin m → ℝ))}

/-- **C116** with sampled variances: the reported means and standard deviations of both chains. -/
theorem C116_chainstats_joint
    (H : ∀ k : ℤ, 1 < k → JointProblem U G L specs sp { opts with nsimu := k } extra ms data q r Nobs N0 S20 dom)
    (D : IdealRng G (nS flags) μ) (D1 : IdealRng G 1 μ)
    (hZ0 : jointPosterior flags specs q r Nobs N0 S20 Set.univ ≠ 0)
    (hZt : jointPosterior flags specs q r Nobs N0 S20 Set.univ ≠ ⊤)
    {p : (Fin (nS flags) → ℝ) × (Fin m → ℝ)} (hpd : p ∈ dom) {η ε : ℝ} (hη : 0 < η) (hε : 0 < ε)
    (hann : ℕ → ℕ → XR) (cdf : XR → XR) {iact : List XR → Except PyErr (XR × ℕ)}
    (hia : ∀ l, l ≠ [] → ∃ a, iact l = .ok a) :
    ∃ K0 : ℕ, ∀ k : ℕ, K0 ≤ k →
      1 - ε ≤ μ.real {s | ∃ K, ∀ fuel, K ≤ fuel → ∃ out s2 S S2,
        runSimulation U G L fuel (newObj (sp p.1) { opts with nsimu := k } extra (ms p.2) data) s false = .ok out ∧
        out.results.s2chain = some s2 ∧
        chainstats (K := ℚ) hann cdf iact (some out.results.chain) = .ok (some S) ∧
        chainstats (K := ℚ) hann cdf iact (some s2) = .ok (some S2) ∧
        (∀ i, Integrable (fun z => z.1 i ^ 2) (jointPosterior flags specs q r Nobs N0 S20) →
          ∃ mean std, S.mean i = .fin mean ∧ S.std i = .fin std ∧
            |mean - meanUnder (jointPosterior flags specs q r Nobs N0 S20) fun z => z.1 i| < η ∧
            |std - Real.sqrt (varUnder (jointPosterior flags specs q r Nobs N0 S20) fun z => z.1 i)| < η) ∧
        ∀ j, Integrable (fun z => z.2 j ^ 2) (jointPosterior flags specs q r Nobs N0 S20) →
          ∃ mean std, S2.mean j = .fin mean ∧ S2.std j = .fin std ∧
            |mean - meanUnder (jointPosterior flags specs q r Nobs N0 S20) fun z => z.2 j| < η ∧
            |std - Real.sqrt (varUnder (jointPosterior flags specs q r Nobs N0 S20) fun z => z.2 j)| < η} := by
  classical
  obtain ⟨hS0, T, hT, hsp, hkeep, hrun⟩ := joint_harris H D D1 hZ0 hZt ⟨p, hpd⟩
  have hp := (H 2 (by norm_num)).within p hpd
  let f : Fin (nS flags) ⊕ Fin m → (Fin (nS flags) → ℝ) × (Fin m → ℝ) → ℝ := fun a z => Sum.elim z.1 z.2 a
  have hf : ∀ a, Measurable (f a) := by
    rintro (i | j)
    · exact (measurable_pi_apply i).comp measurable_fst
    · exact (measurable_pi_apply j).comp measurable_snd
  let ι := {a // Integrable (fun z => f a z ^ 2) (jointPosterior flags specs q r Nobs N0 S20)}
  choose d hd0 hd using fun a : ι => sqrt_near (meanUnder (jointPosterior flags specs q r Nobs N0 S20) (f a.1))
    (varUnder (jointPosterior flags specs q r Nobs N0 S20) (f a.1)) hη
  obtain ⟨δ, hδ, hδd⟩ := exists_common hd0
  obtain ⟨K, hK⟩ := hT.moments (measurableSet_jointStarts flags specs m) hsp hkeep hS0 hp (lt_min hδ hη) hε
    (g := fun (a : ι) => f a.1) (fun a => hf a.1) (fun a => a.2.smul_measure (ENNReal.inv_ne_top.2 hZ0))
  refine ⟨K + 40, fun k hk => ?_⟩
  obtain ⟨B, hB, hBε, hgood⟩ := hK k (by omega)
  have hclose : ∀ s, s ∉ B → ∀ a, Integrable (fun z => f a z ^ 2) (jointPosterior flags specs q r Nobs N0 S20) →
      |(∑ j ∈ Finset.range k, f a (T^[j] (p, s)).1) / k -
        meanUnder (jointPosterior flags specs q r Nobs N0 S20) (f a)| < η ∧
      |Real.sqrt ((∑ j ∈ Finset.range k, f a (T^[j] (p, s)).1 ^ 2) / k -
        ((∑ j ∈ Finset.range k, f a (T^[j] (p, s)).1) / k) ^ 2) -
        Real.sqrt (varUnder (jointPosterior flags specs q r Nobs N0 S20) (f a))| < η := by
    intro s hs a ha
    obtain ⟨h1, h2⟩ := hgood s hs ⟨a, ha⟩
    unfold jointLaw at h1 h2
    rw [integral_normalized] at h1
    rw [variance_normalized, integral_normalized] at h2
    exact ⟨h1.trans_le (min_le_right _ _), hd ⟨a, ha⟩ _ _ (h1.trans_le ((min_le_left _ _).trans (hδd _)))
      (h2.trans_le ((min_le_left _ _).trans (hδd _)))⟩
  calc 1 - ε ≤ 1 - μ.real B := by linarith
    _ = μ.real Bᶜ := (probReal_compl_eq_one_sub hB).symm
    _ ≤ _ := by
      refine ENNReal.toReal_mono (measure_ne_top μ _) (measure_mono_ae ?_)
      filter_upwards [hrun k (by omega) p hpd] with s hs hsB
      obtain ⟨K1, hK1⟩ := hs
      refine ⟨K1, fun fuel hfuel => ?_⟩
      obtain ⟨out, ho, s2, hs2, hr⟩ := hK1 fuel hfuel
      have Hk := H k (by omega)
      have hlen : (out.results.chain.length : ℤ) = k := (C02_chain_records_moves (Hk.valid p hpd).noRestart ho).1
      have hlen2 : (s2.length : ℤ) = k := by
        obtain ⟨c, e1, -, e3, -⟩ := run_sigma ho (Hk.settings p hpd).sampled.symm
        obtain rfl : s2 = c := Option.some.inj (hs2.symm.trans e1)
        exact e3
      have hch := rows_eq (k := k) (by exact_mod_cast hlen) fun j hj => (hr j (by exact_mod_cast hj)).1
      have hch2 := rows_eq (k := k) (by exact_mod_cast hlen2) fun j hj => (hr j (by exact_mod_cast hj)).2
      obtain ⟨S, hS, hm⟩ := chainstats_moments hann cdf iact hia (by omega) (fun j => (T^[j] (p, s)).1.1) hch
      obtain ⟨S2, hS2, hm2⟩ := chainstats_moments hann cdf iact hia (by omega) (fun j => (T^[j] (p, s)).1.2) hch2
      exact ⟨out, s2, S, S2, ho, hs2, hS, hS2,
        fun i hi => ⟨_, _, (hm i).1, (hm i).2, hclose s hsB (.inl i) hi⟩,
        fun j hj => ⟨_, _, (hm2 j).1, (hm2 j).2, hclose s hsB (.inr j) hj⟩⟩

/-- **C117** with sampled variances. -/
theorem C117_gelman_rubin_joint
    (H : ∀ k : ℤ, 1 < k → JointProblem U G L specs sp { opts with nsimu := k } extra ms data q r Nobs N0 S20 dom)
    (D : IdealRng G (nS flags) μ) (D1 : IdealRng G 1 μ)
    (hZ0 : jointPosterior flags specs q r Nobs N0 S20 Set.univ ≠ 0)
    (hZt : jointPosterior flags specs q r Nobs N0 S20 Set.univ ≠ ⊤) {M : ℕ} (hM : 2 ≤ M)
    {p : Fin M → (Fin (nS flags) → ℝ) × (Fin m → ℝ)} (hpd : ∀ c, p c ∈ dom)
    {Ω : Type} [MeasurableSpace Ω] {P : Measure Ω} [IsProbabilityMeasure P] {st : Fin M → Ω → σ}
    (hst : ∀ c, MeasurePreserving (st c) P μ) {η ε : ℝ} (hη : 0 < η) (hε : 0 < ε) :
    ∃ K0 : ℕ, ∀ k : ℕ, K0 ≤ k →
      1 - ε ≤ P.real {ω | ∃ K, ∀ fuel, K ≤ fuel → ∃ out : Fin M → RunOut XR σ flags m, ∃ rs,
        (∀ c, runSimulation U G L fuel
          (newObj (sp (p c).1) { opts with nsimu := k } extra (ms (p c).2) data) (st c ω) false = .ok (out c)) ∧
        gelmanRubin (List.ofFn fun c => (out c).results.chain) = .ok rs ∧ rs.length = nS flags ∧
        ∀ i : Fin (nS flags), Integrable (fun z => z.1 i ^ 2) (jointPosterior flags specs q r Nobs N0 S20) →
          ∃ e R W V, rs[(i : ℕ)]? = some e ∧ e.R = .fin R ∧ e.W = .fin W ∧ e.V = .fin V ∧ |R - 1| < η ∧
            |W - varUnder (jointPosterior flags specs q r Nobs N0 S20) fun z => z.1 i| < η ∧
            |V - varUnder (jointPosterior flags specs q r Nobs N0 S20) fun z => z.1 i| < η} := by
  classical
  obtain ⟨hS0, T, hT, hsp, hkeep, hrun⟩ := joint_harris H D D1 hZ0 hZt ⟨p ⟨0, by omega⟩, hpd _⟩
  have hprob := hT.prob
  have hp := fun c => (H 2 (by norm_num)).within (p c) (hpd c)
  let ι := {i : Fin (nS flags) // Integrable (fun z => z.1 i ^ 2) (jointPosterior flags specs q r Nobs N0 S20)}
  have hι : ∀ i : ι, Integrable (fun z => z.1 i.1 ^ 2) (jointLaw flags specs q r Nobs N0 S20) := fun i =>
    i.2.smul_measure (ENNReal.inv_ne_top.2 hZ0)
  have hgm : ∀ i : ι, Measurable fun z : (Fin (nS flags) → ℝ) × (Fin m → ℝ) => z.1 i.1 := fun i =>
    (measurable_pi_apply _).comp measurable_fst
  have hv : ∀ i : ι, 0 < varUnder (jointPosterior flags specs q r Nobs N0 S20) fun z => z.1 i.1 := fun i => by
    have h1 := variance_pos (hgm i) (hι i) fun c => by
      unfold jointLaw jointPosterior
      rw [Measure.smul_apply, withDensity_absolutelyContinuous _ _ (?_ :
        ((volume : Measure (Fin (nS flags) → ℝ)).prod (volume : Measure (Fin m → ℝ))) {z | z.1 i.1 = c} = 0),
        smul_zero]
      have : {z : (Fin (nS flags) → ℝ) × (Fin m → ℝ) | z.1 i.1 = c} = {θ | θ i.1 = c} ×ˢ Set.univ := by
        ext z; simp
      rw [this, Measure.prod_prod, volume_pi, Measure.pi_hyperplane, zero_mul]
    unfold jointLaw at h1
    rwa [variance_normalized] at h1
  choose d hd0 Kd hKd2 hd using fun i : ι => psrf_near hM
    (meanUnder (jointPosterior flags specs q r Nobs N0 S20) fun z => z.1 i.1) (hv i) hη
  obtain ⟨δ, hδ, hδd⟩ := exists_common hd0
  have hM0 : (0 : ℝ) < M := by exact_mod_cast (by omega : 0 < M)
  choose K hK using fun c => hT.moments (measurableSet_jointStarts flags specs m) hsp hkeep hS0 (hp c) hδ
    (div_pos hε hM0) (g := fun (i : ι) z => z.1 i.1) hgm hι
  refine ⟨∑ c, K c + ∑ i, Kd i + 2, fun k hk => ?_⟩
  have hkc : ∀ c, K c ≤ k := fun c =>
    (Finset.single_le_sum (f := K) (fun _ _ => Nat.zero_le _) (Finset.mem_univ c)).trans (by omega)
  have hki : ∀ i, Kd i ≤ k := fun i =>
    (Finset.single_le_sum (f := Kd) (fun _ _ => Nat.zero_le _) (Finset.mem_univ i)).trans (by omega)
  choose B hB hBε hgood using fun c => hK c k (hkc c)
  have hBm : MeasurableSet (⋃ c, st c ⁻¹' B c) := MeasurableSet.iUnion fun c => (hst c).measurable (hB c)
  have hPB : P.real (⋃ c, st c ⁻¹' B c) ≤ ε := by
    calc _ ≤ ∑ c, P.real (st c ⁻¹' B c) := measureReal_iUnion_fintype_le _
      _ = ∑ c, μ.real (B c) := Finset.sum_congr rfl fun c _ => by
          unfold Measure.real
          rw [(hst c).measure_preimage (hB c).nullMeasurableSet]
      _ ≤ ∑ _c : Fin M, ε / M := Finset.sum_le_sum fun c _ => hBε c
      _ = ε := by simp; field_simp
  have hall : ∀ᵐ ω ∂P, ∀ c, ∃ K, ∀ fuel, K ≤ fuel →
        ∃ out, runSimulation U G L fuel (newObj (sp (p c).1) { opts with nsimu := k } extra (ms (p c).2) data)
            (st c ω) false = .ok out ∧
          ∃ s2, out.results.s2chain = some s2 ∧ ∀ j : ℕ, (j : ℤ) < k →
            out.results.chain[j]? = some (finVec (T^[j] (p c, st c ω)).1.1) ∧
            s2[j]? = some (finVec (T^[j] (p c, st c ω)).1.2) :=
    ae_all_iff.2 fun c => (hst c).quasiMeasurePreserving.ae (hrun k (by omega) (p c) (hpd c))
  calc 1 - ε ≤ 1 - P.real (⋃ c, st c ⁻¹' B c) := by linarith
    _ = P.real (⋃ c, st c ⁻¹' B c)ᶜ := (probReal_compl_eq_one_sub hBm).symm
    _ ≤ _ := by
      refine ENNReal.toReal_mono (measure_ne_top P _) (measure_mono_ae ?_)
      filter_upwards [hall] with ω hs hω
      have hω' : ∀ c, st c ω ∉ B c := fun c hc => hω (Set.mem_iUnion.2 ⟨c, hc⟩)
      choose K1 hK1 using hs
      refine ⟨∑ c, K1 c, fun fuel hfuel => ?_⟩
      choose out ho s2 hs2 hr using fun c => hK1 c fuel
        ((Finset.single_le_sum (f := K1) (fun _ _ => Nat.zero_le _) (Finset.mem_univ c)).trans hfuel)
      have hch : ∀ c, (out c).results.chain = List.ofFn fun j : Fin k => finVec (T^[j] (p c, st c ω)).1.1 :=
        fun c => by
          have hlen : ((out c).results.chain.length : ℤ) = k :=
            (C02_chain_records_moves ((H k (by omega)).valid _ (hpd c)).noRestart (ho c)).1
          exact rows_eq (g := fun j => finVec (T^[j] (p c, st c ω)).1.1) (by exact_mod_cast hlen)
            fun j hj => (hr c j (by exact_mod_cast hj)).1
      obtain ⟨rs, hrs, hlen, hcol⟩ := gelmanRubin_columns hM (k := k) (by omega)
        (fun c j => (T^[(j : ℕ)] (p c, st c ω)).1.1)
        (chains := List.ofFn fun c => (out c).results.chain) (by simp only [hch])
      refine ⟨out, rs, ho, hrs, hlen, fun i hi => ?_⟩
      obtain ⟨e, he, hpe⟩ := hcol i
      obtain ⟨e', R, W, V, hpe', hR, hW, hV, h1, h2, h3⟩ := hd ⟨i, hi⟩ k (hki _)
        (fun j c => (T^[(j : ℕ)] (p c, st c ω)).1.1 i) fun c => by
          obtain ⟨g1, g2⟩ := hgood c _ (hω' c) ⟨i, hi⟩
          unfold jointLaw at g1 g2
          rw [integral_normalized] at g1
          rw [variance_normalized, integral_normalized] at g2
          rw [avg_range fun j => (T^[j] (p c, st c ω)).1.1 i, avg_range fun j => (T^[j] (p c, st c ω)).1.1 i ^ 2]
          exact ⟨g1.trans_le (hδd _), g2.trans_le (hδd _)⟩
      obtain rfl : e = e' := Except.ok.inj (hpe.symm.trans hpe')
      exact ⟨e, R, W, V, he, hR, hW, hV, h1, h2, h3⟩

end joint

/-! ### Examples -/

/-- The parameter of `XRun.freeProblem` has a finite posterior second moment. -/
theorem XRun.free_square (i : Fin (nS XRun.flags)) : Integrable (fun θ : Fin (nS XRun.flags) → ℝ => θ i ^ 2)
    (posteriorMeasure (m := 1) XRun.flags XRun.freeSpecs
      (fun θ _ => θ ⟨0, by decide⟩ * θ ⟨0, by decide⟩) (fun _ => 0) (fun _ => 1)) := by
  obtain rfl : i = ⟨0, by decide⟩ := by
    have h1 := i.2
    have h2 := XRun.nS_flags
    exact Fin.ext (by simp; omega)
  unfold posteriorMeasure
  have hm : Measurable (posteriorDensity (m := 1) XRun.flags XRun.freeSpecs
      (fun θ _ => θ ⟨0, by decide⟩ * θ ⟨0, by decide⟩) (fun _ => 0) (fun _ => 1)) :=
    measurable_posteriorDensity (by fun_prop) measurable_const
  rw [integrable_withDensity_iff hm.ennreal_ofReal (ae_of_all _ fun θ => ENNReal.ofReal_lt_top)]
  have h2 : Integrable fun x : ℝ => x ^ 2 * Real.exp (-(1 / 2) * x ^ 2) := by
    have := integrable_rpow_mul_exp_neg_mul_sq (b := 1 / 2) (by norm_num) (s := 2) (by norm_num)
    simpa using this
  have hi : Integrable (fun θ : Fin (nS XRun.flags) → ℝ => ∏ i, (θ i ^ 2 * Real.exp (-(1 / 2) * θ i ^ 2))) :=
    Integrable.fintype_prod (f := fun _ x => x ^ 2 * Real.exp (-(1 / 2) * x ^ 2)) fun _ => h2
  refine hi.congr (ae_of_all _ fun θ => ?_)
  have hu : (Finset.univ : Finset (Fin (nS XRun.flags))) = {⟨0, by decide⟩} := by decide
  simp only [XRun.free_density]
  rw [hu, Finset.prod_singleton, Finset.prod_singleton, ENNReal.toReal_ofReal (Real.exp_pos _).le]

/-- C116 for the standard normal posterior on the whole line, from start 1000000. -/
example : ∃ K : ℕ, ∀ k : ℕ, K ≤ k →
    1 - 1 / 100 ≤
      (coinLaw (nS XRun.flags)).real {s | ∃ out S,
        runSimulation XRun.user (coinRng (nS XRun.flags)) exactLapack 0
          (newObj (m := 1) (XRun.freeAt fun _ => 1000000) (defineSimulationOptions { nsimu := k, method := .dr })
            (XRun.extra 1 1) XRun.settings XRun.data) s false = .ok out ∧
        chainstats (K := ℚ) (fun _ _ => .fin 1) id (fun _ => .ok (.fin 1, 0)) (some out.results.chain) = .ok (some S) ∧
        ∃ mean std, S.mean ⟨0, by decide⟩ = .fin mean ∧ S.std ⟨0, by decide⟩ = .fin std ∧
          |mean - meanUnder (posteriorMeasure (m := 1) XRun.flags XRun.freeSpecs
            (fun θ _ => θ ⟨0, by decide⟩ * θ ⟨0, by decide⟩) (fun _ => 0) (fun _ => 1))
            fun θ => θ ⟨0, by decide⟩| < 1 / 10 ∧
          |std - Real.sqrt (varUnder (posteriorMeasure (m := 1) XRun.flags XRun.freeSpecs
            (fun θ _ => θ ⟨0, by decide⟩ * θ ⟨0, by decide⟩) (fun _ => 0) (fun _ => 1))
            fun θ => θ ⟨0, by decide⟩)| < 1 / 10} := by
  obtain ⟨K, h⟩ := C116_chainstats
    (opts := defineSimulationOptions { nsimu := 2, method := .dr }) XRun.freeProblem (coinIdeal _)
    XRun.free_mass.1 XRun.free_mass.2 (XRun.free_inLimits fun _ => 1000000) (η := 1 / 10) (ε := 1 / 100)
    (by norm_num) (by norm_num) (fun _ _ => .fin 1) id (iact := fun _ => .ok (.fin 1, 0)) fun _ _ => ⟨_, rfl⟩
  refine ⟨K, fun k hk => (h k hk 0).trans (measureReal_mono fun s hs => ?_)⟩
  obtain ⟨out, S, ho, hS, hi⟩ := hs
  exact ⟨out, S, ho, hS, hi _ (XRun.free_square _)⟩

/-- C117 for the standard normal posterior on the whole line: three chains started at -1000000, 0 and 1000000, with
the same random numbers. -/
example : ∃ K : ℕ, ∀ k : ℕ, K ≤ k →
    1 - 1 / 100 ≤
      (coinLaw (nS XRun.flags)).real {s | ∃ out : Fin 3 → RunOut XR _ XRun.flags 1, ∃ rs,
        (∀ c : Fin _, runSimulation XRun.user (coinRng (nS XRun.flags)) exactLapack 0
          (newObj (m := 1) (XRun.freeAt fun _ => (((c : ℕ) : ℝ) - 1) * 1000000)
            (defineSimulationOptions { nsimu := k, method := .dr })
            (XRun.extra 1 1) XRun.settings XRun.data) s false = .ok (out c)) ∧
        gelmanRubin (List.ofFn fun c => (out c).results.chain) = .ok rs ∧
        ∃ e R, rs[0]? = some e ∧ e.R = .fin R ∧ |R - 1| < 1 / 10} := by
  obtain ⟨K, h⟩ := C117_gelman_rubin
    (opts := defineSimulationOptions { nsimu := 2, method := .dr }) XRun.freeProblem (coinIdeal _)
    XRun.free_mass.1 XRun.free_mass.2 (M := 3) (by norm_num)
    (x := fun c _ => (((c : ℕ) : ℝ) - 1) * 1000000) (fun c => XRun.free_inLimits _)
    (P := coinLaw (nS XRun.flags)) (st := fun _ => id) (fun _ => MeasurePreserving.id _)
    (η := 1 / 10) (ε := 1 / 100) (by norm_num) (by norm_num)
  refine ⟨K, fun k hk => (h k hk 0).trans (measureReal_mono fun s hs => ?_)⟩
  obtain ⟨out, rs, ho, hrs, -, hi⟩ := hs
  obtain ⟨e, R, W, V, h1, h2, -, -, h3, -⟩ := hi ⟨0, by decide⟩ (XRun.free_square _)
  exact ⟨out, rs, ho, hrs, e, R, h1, h2, h3⟩

/-- The parameter of `XRun.freeJoint` has a finite posterior second moment. -/
theorem XRun.freeJoint_square (i : Fin (nS XRun.flags)) :
    Integrable (fun z : (Fin (nS XRun.flags) → ℝ) × (Fin 1 → ℝ) => z.1 i ^ 2)
      (jointPosterior (m := 1) XRun.flags XRun.freeSpecs (fun θ _ => θ ⟨0, by decide⟩ * θ ⟨0, by decide⟩)
        (fun _ => 0) (fun _ => 5) (fun _ => 1) (fun _ => 1)) := by
  obtain rfl : i = ⟨0, by decide⟩ := by
    have h1 := i.2
    have h2 := XRun.nS_flags
    exact Fin.ext (by simp; omega)
  have H := XRun.freeJoint 2 (by norm_num)
  refine ⟨(((measurable_pi_apply _).comp measurable_fst).pow_const 2).aestronglyMeasurable, ?_⟩
  unfold HasFiniteIntegral
  rw [joint_values_lintegral H.measurable.1 H.measurable.2 H.shapes H.rates
    (g := fun θ => ‖θ ⟨0, by decide⟩ ^ 2‖ₑ) (by fun_prop)]
  refine lt_of_le_of_lt (lintegral_mono fun θ => ?_) XRun.free_integrable.lintegral_lt_top
  have hu : (Finset.univ : Finset (Fin (nS XRun.flags))) = {⟨0, by decide⟩} := by decide
  rw [XRun.free_factor, hu, Finset.prod_singleton, Finset.prod_singleton, ← ofReal_norm, Real.norm_eq_abs,
    ← ENNReal.ofReal_mul (by positivity), mul_comm]
  refine ENNReal.ofReal_le_ofReal ?_
  set x := θ ⟨0, by decide⟩
  have h0 : 0 < 1 + x ^ 2 := by positivity
  rw [abs_of_nonneg (sq_nonneg x), mul_left_comm]
  refine mul_le_mul_of_nonneg_left ?_ (by norm_num)
  rw [← div_eq_mul_inv, ← one_div, div_le_div_iff₀ (by positivity) h0]
  nlinarith [mul_pos h0 h0, sq_nonneg x, mul_nonneg (sq_nonneg x) h0.le, pow_pos h0 3]

/-- C116 with a sampled variance: value and variance from start 1000000 and 2. -/
example : ∃ K0 : ℕ, ∀ k : ℕ, K0 ≤ k →
    1 - 1 / 100 ≤
      (coinLaw (nS XRun.flags)).real {s | ∃ K, ∀ fuel, K ≤ fuel → ∃ out S,
        runSimulation XRun.user (coinRng (nS XRun.flags)) exactLapack fuel
          (newObj (m := 1) (XRun.freeAt fun _ => 1000000)
            (defineSimulationOptions { nsimu := k, method := .dr, updatesigma := true })
            (XRun.extra 1 1) (XRun.settingsAt fun _ => 2) XRun.data) s false = .ok out ∧
        chainstats (K := ℚ) (fun _ _ => .fin 1) id (fun _ => .ok (.fin 1, 0)) (some out.results.chain) = .ok (some S) ∧
        ∃ mean std, S.mean ⟨0, by decide⟩ = .fin mean ∧ S.std ⟨0, by decide⟩ = .fin std ∧
          |mean - meanUnder (jointPosterior (m := 1) XRun.flags XRun.freeSpecs
            (fun θ _ => θ ⟨0, by decide⟩ * θ ⟨0, by decide⟩) (fun _ => 0) (fun _ => 5) (fun _ => 1) (fun _ => 1))
            fun z => z.1 ⟨0, by decide⟩| < 1 / 10 ∧
          |std - Real.sqrt (varUnder (jointPosterior (m := 1) XRun.flags XRun.freeSpecs
            (fun θ _ => θ ⟨0, by decide⟩ * θ ⟨0, by decide⟩) (fun _ => 0) (fun _ => 5) (fun _ => 1) (fun _ => 1))
            fun z => z.1 ⟨0, by decide⟩)| < 1 / 10} := by
  have D1 : IdealRng (coinRng (nS XRun.flags)) 1 (coinLaw (nS XRun.flags)) := by
    rw [XRun.nS_flags]; exact coinIdeal 1
  obtain ⟨K0, h⟩ := C116_chainstats_joint
    (opts := defineSimulationOptions { nsimu := 2, method := .dr, updatesigma := true }) XRun.freeJoint
    (coinIdeal _) D1 XRun.freeJoint_mass.1 XRun.freeJoint_mass.2 (p := (fun _ => 1000000, fun _ => 2))
    ⟨XRun.free_inLimits _, fun _ => by norm_num⟩ (η := 1 / 10) (ε := 1 / 100) (by norm_num)
    (by norm_num) (fun _ _ => .fin 1) id (iact := fun _ => .ok (.fin 1, 0)) fun _ _ => ⟨_, rfl⟩
  refine ⟨K0, fun k hk => (h k hk).trans (measureReal_mono fun s hs => ?_)⟩
  obtain ⟨K, hs⟩ := hs
  refine ⟨K, fun fuel hf => ?_⟩
  obtain ⟨out, s2, S, S2, ho, -, hS, -, hi, -⟩ := hs fuel hf
  exact ⟨out, S, ho, hS, hi _ (XRun.freeJoint_square _)⟩

/-- C117 with a sampled variance: two chains, started at values -1000000 and 1000000 and at variance 2. -/
example : ∃ K0 : ℕ, ∀ k : ℕ, K0 ≤ k →
    1 - 1 / 100 ≤
      (coinLaw (nS XRun.flags)).real {s | ∃ K, ∀ fuel, K ≤ fuel → ∃ out : Fin 2 → RunOut XR _ XRun.flags 1, ∃ rs,
        (∀ c : Fin _, runSimulation XRun.user (coinRng (nS XRun.flags)) exactLapack fuel
          (newObj (m := 1) (XRun.freeAt fun _ => (2 * ((c : ℕ) : ℝ) - 1) * 1000000)
            (defineSimulationOptions { nsimu := k, method := .dr, updatesigma := true })
            (XRun.extra 1 1) (XRun.settingsAt fun _ => 2) XRun.data) s false = .ok (out c)) ∧
        gelmanRubin (List.ofFn fun c => (out c).results.chain) = .ok rs ∧
        ∃ e R, rs[0]? = some e ∧ e.R = .fin R ∧ |R - 1| < 1 / 10} := by
  have D1 : IdealRng (coinRng (nS XRun.flags)) 1 (coinLaw (nS XRun.flags)) := by
    rw [XRun.nS_flags]; exact coinIdeal 1
  obtain ⟨K0, h⟩ := C117_gelman_rubin_joint
    (opts := defineSimulationOptions { nsimu := 2, method := .dr, updatesigma := true }) XRun.freeJoint
    (coinIdeal _) D1 XRun.freeJoint_mass.1 XRun.freeJoint_mass.2 (M := 2) le_rfl
    (p := fun c => (fun _ => (2 * ((c : ℕ) : ℝ) - 1) * 1000000, fun _ => 2))
    (fun c => ⟨XRun.free_inLimits _, fun _ => by norm_num⟩)
    (P := coinLaw (nS XRun.flags)) (st := fun _ => id) (fun _ => MeasurePreserving.id _)
    (η := 1 / 10) (ε := 1 / 100) (by norm_num) (by norm_num)
  refine ⟨K0, fun k hk => (h k hk).trans (measureReal_mono fun s hs => ?_)⟩
  obtain ⟨K, hs⟩ := hs
  refine ⟨K, fun fuel hf => ?_⟩
  obtain ⟨out, rs, ho, hrs, -, hi⟩ := hs fuel hf
  obtain ⟨e, R, W, V, h1, h2, -, -, h3, -⟩ := hi ⟨0, by decide⟩ (XRun.freeJoint_square _)
  exact ⟨out, rs, ho, hrs, e, R, h1, h2, h3⟩

end Verif
