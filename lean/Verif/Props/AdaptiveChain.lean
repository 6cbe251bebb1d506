import Verif.Lemmas.FactorMove
import Verif.Props.Invariance

/-! # C99: every iteration of an adaptive run is a transition that keeps the posterior -/

set_option linter.unusedSectionVars false

namespace Verif
open XR MeasureTheory Function ProbabilityTheory
open scoped ENNReal

section records
variable {F σ : Type} [PyFloat F] {N m : ℕ} {flags : Fin N → Bool}

/-- Each adaptation starts from the covariance state the previous one left. -/
theorem adaptLog_chain {U : UserFuns F N (nS flags) m} {G : Rng σ F} {L : Lapack F}
    {fuel : ℕ} {o : Obj F flags m} {rng : σ} {up : Bool} {out : RunOut F σ flags m}
    (h : runSimulation U G L fuel o rng up = .ok out) :
    ∀ a ∈ out.final.adaptLog, 0 < a.at_ ∧
      a.before = covAfter out.init.cov (out.final.adaptLog.filter fun b => decide (b.at_ < a.at_)) ∧
      a.after = covAfter out.init.cov (out.final.adaptLog.filter fun b => decide (b.at_ ≤ a.at_)) := by
  obtain ⟨o1, I, s0, hst, rfl, hc0, hset, h2, _⟩ := run_cov h
  obtain ⟨_, s1, ⟨hat, hcov, hI⟩, hfin⟩ := executeSimulator_inv
    (P := fun i s => (∀ a ∈ s.adaptLog, a.at_ < i) ∧ s.cov = covAfter s0.cov s.adaptLog ∧
      ∀ a ∈ s.adaptLog, 0 < a.at_ ∧
        a.before = covAfter s0.cov (s.adaptLog.filter fun b => decide (b.at_ < a.at_)) ∧
        a.after = covAfter s0.cov (s.adaptLog.filter fun b => decide (b.at_ ≤ a.at_)))
    ⟨by simp [loopStart, hst.adaptLog], by simp [loopStart, hst.adaptLog, covAfter],
      by simp [loopStart, hst.adaptLog]⟩
    (fun i a b p hi _ hP hp => by
      obtain ⟨p1, p2, p3⟩ := hP
      have hc := hp.cov
      have hl := hp.adaptLog
      by_cases had : adaptNow ⟨out.init.problem, G, L, runOpts out.init.opts o1.extra, fuel⟩ a
      · rw [if_pos had] at hl hc
        rw [hl]
        refine ⟨fun x hx => ?_, by simp [covAfter], fun x hx => ?_⟩
        · rcases List.mem_append.1 hx with hx | hx
          · have := p1 x hx; omega
          · rw [List.mem_singleton.1 hx]; exact Nat.lt_succ_self i
        · rcases List.mem_append.1 hx with hx | hx
          · obtain ⟨q1, q2, q3⟩ := p3 x hx
            have := p1 x hx
            rw [List.filter_append, List.filter_append]
            have e1 : ([⟨i, a.cov, b.cov, p.u, p.newSet.alpha⟩] : List (AdaptRecord F (nS flags))).filter
                (fun b => decide (b.at_ < x.at_)) = [] := by simp; omega
            have e2 : ([⟨i, a.cov, b.cov, p.u, p.newSet.alpha⟩] : List (AdaptRecord F (nS flags))).filter
                (fun b => decide (b.at_ ≤ x.at_)) = [] := by simp; omega
            rw [e1, e2, List.append_nil, List.append_nil]
            exact ⟨q1, q2, q3⟩
          · rw [List.mem_singleton] at hx
            subst hx
            refine ⟨by dsimp only; omega, ?_, ?_⟩
            · rw [List.filter_append]
              have e1 : ([⟨i, a.cov, b.cov, p.u, p.newSet.alpha⟩] : List (AdaptRecord F (nS flags))).filter
                (fun b => decide (b.at_ < i)) = [] := by simp
              dsimp only
              rw [e1, List.append_nil, List.filter_eq_self.2 (fun y hy => by simpa using p1 y hy)]
              exact p2
            · rw [List.filter_append]
              simp [covAfter]
      · rw [if_neg had] at hl hc
        rw [List.append_nil] at hl
        rw [hl, hc]
        exact ⟨fun x hx => by have := p1 x hx; omega, p2, p3⟩) h2
  have e : out.final.adaptLog = s1.adaptLog := by rw [hfin]
  rw [e, ← hc0]
  exact hI

end records

variable {σ : Type} [MeasurableSpace σ] {μ : Measure σ} {G : Rng σ XR} {N m : ℕ} {flags : Fin N → Bool}

/-- The problem of sampling the posterior given by `q`, `r`, `v`, with or without adaptation.  It is valid,
the user's functions have the values `q` and `r`; the error variances are not sampled; `ram`
is not used (`ExactInputs`), no factors are given, `initqcovn` is not set, and no adaptation falls into the
burn-in.  The Cholesky routine returns the triangular factor. -/
structure AdaptiveProblem (U : UserFuns XR N (nS flags) m) (G : Rng σ XR) (L : Lapack XR)
    (specs : Fin N → ParamSpec XR) (opts : SimOpts XR)
    (extra : ExtraOpts XR (nS flags)) (ms : ModelSettings XR) (data : Data)
    (q : (Fin (nS flags) → ℝ) → Fin m → ℝ) (r : (Fin (nS flags) → ℝ) → ℝ) (v : Fin m → ℝ) : Prop where
  exact : ExactInputs G L (newObj specs opts extra ms data : Obj XR flags m)
  valid : ValidProblem U (newObj specs opts extra ms data : Obj XR flags m)
  names : (((List.finRange N).filter flags).map fun k => (specs k).name).Nodup
  triangular : TriangularFactor L (nS flags)
  noBurnin : 0 < opts.adaptint → opts.burnintime ≤ opts.adaptint
  noWeight : opts.initqcovn = none
  noSampling : opts.updatesigma = false ∧ ms.N0 = none
  noFactors : extra.RDR = none
  sosDim : 0 < m
  sos : ∀ θ ss, SosThere U specs (finVec θ) ss → ss = finVec (q θ)
  prior : ∀ mu sigma, UserPrior flags specs mu sigma → ∀ θ, U.priorFun (finVec θ) mu sigma = .fin (r θ)
  variances : FixedVariances ms v ∧ ∀ i, 0 < v i
  measurable : Measurable q ∧ Measurable r

/-- The state of the covariance settings at the start does not depend on the generator. -/
theorem init_cov_const {U : UserFuns XR N (nS flags) m} {L : Lapack XR} {o : Obj XR flags m}
    (hj : o.extra.jsonRestart = none) {s s' : σ} {o1 o1' : Obj XR flags m} {I I' : Init XR σ flags m}
    {st st' : SimState XR σ N (nS flags) m} (h : setupSimulator U L o s false = .ok (o1, I, st))
    (h' : setupSimulator U L o s' false = .ok (o1', I', st')) : I.cov = I'.cov := by
  obtain ⟨a1, -, -, -, -, -, -, a2, a3, -⟩ := setup_fresh h
  obtain ⟨b1, -, -, -, -, -, -, b2, b3, -⟩ := setup_fresh h'
  obtain rfl := a2 hj
  obtain rfl := b2 hj
  have e1 := initializeSimulation_cov a3
  have e2 := initializeSimulation_cov b3
  rw [a1.init.opts, a1.init.theta] at e1
  rw [b1.init.opts, b1.init.theta, e1] at e2
  exact Except.ok.inj e2

/-- The rows and the factors of a run follow the process `histAfter`. -/
theorem adaptive_rows {U : UserFuns XR N (nS flags) m} {L : Lapack XR}
    {specs : Fin N → ParamSpec XR} {opts : SimOpts XR}
    {extra : ExtraOpts XR (nS flags)} {ms : ModelSettings XR} {data : Data}
    {q : (Fin (nS flags) → ℝ) → Fin m → ℝ} {r : (Fin (nS flags) → ℝ) → ℝ} {v : Fin m → ℝ}
    (H : AdaptiveProblem U G L specs opts extra ms data q r v) (D : IdealRng G (nS flags) μ)
    {ds : List ℝ} (hds : extra.drscale = ds.map .fin) (hds0 : ∀ d ∈ ds, d ≠ 0)
    {ε sc : ℝ} (hε : extra.qcovAdjust = .fin ε) (hsc : IsScale opts.adascale (nS flags) sc)
    {x : Fin (nS flags) → ℝ} (hx : ∀ i, (specs (parindOf flags i)).theta0 = .fin (x i))
    {fuel : ℕ} {s : σ} {out : RunOut XR σ flags m}
    (h : runSimulation U G L fuel (newObj specs opts extra ms data) s false = .ok out)
    {R0 Q : Matrix (Fin (nS flags)) (Fin (nS flags)) ℝ} (hR0 : out.init.cov.R = finMx R0) (hu0 : IsUnit R0)
    (hQ : out.init.cov.qcov = finMx Q) (hQpd : Q.PosDef)
    {rows : List (Fin (nS flags) → ℝ)} (hrows : out.results.chain = rows.map finVec)
    (hadapt : ∀ a ∈ out.final.adaptLog, ∃ R, a.after.R = finMx R ∧ IsUnit R)
    (j : ℕ) (hj : (j : ℤ) < opts.nsimu) :
    ∀ p, p = histAfter (factorMove D (logPost flags specs q r v) ds opts.ntry)
      (nextFactor H.triangular opts.adaptint (noAdaptOf flags specs) Q ε sc) x (fun a b => R0 a b) j s →
    (∀ i ≤ j, out.results.chain[i]? = some (finVec (p.1 i).1)) ∧
    (∀ rec, out.final.moveLog[j]? = some rec → rec.rng = p.2 ∧ rec.R = finMx (Matrix.of (p.1 j).2)) ∧
    (covAfter out.init.cov (out.final.adaptLog.filter fun a => decide (a.at_ ≤ j))).R =
      finMx (Matrix.of (p.1 j).2) ∧ IsUnit (Matrix.of (p.1 j).2) := by
  have hnan : ∀ k, PyFloat.isnan (specs k).theta0 = false := fun k => by
    obtain ⟨t, ht⟩ := H.valid.initial k
    change (specs k).theta0 = _ at ht
    rw [ht]; rfl
  obtain ⟨mu, sigma, hmu, hst⟩ := C78_stages .start hnan h
  obtain ⟨k0, mu', sigma', hmu', hk0, hlen', htr, hdec⟩ := C72_decisions .start H.names hnan h
  obtain ⟨rfl, rfl⟩ := hmu.unique hmu'
  obtain ⟨-, hs0, k0', hk0', hseq⟩ := C79_draws_in_sequence .start h
  obtain ⟨hcl, ⟨row0, hrow0, hrow0'⟩, ⟨-, hmove⟩, -⟩ := C02_chain_records_moves H.valid.noRestart h
  have hlim := C01_rows_within_limits .start h
  have hsos := (C03_sums_of_squares_belong_to_rows .start h).2
  have hs2 : out.results.s2chain = none := ((run_updatesigma h).1 H.noSampling.2 H.noSampling.1).2
  have hlen'' : (out.final.moveLog.length : ℤ) + 1 = opts.nsimu := hlen'
  have hcl' : (out.results.chain.length : ℤ) = opts.nsimu := hcl
  obtain rfl : k0 = 0 := by omega
  have hrec := adaptLog_chain h
  have hat := adaptLog_at h
  have hsch := C14_adaptation_schedule_partial h
  change (0 < opts.adaptint → _ ∧ ∀ j : ℕ, _ ↔ 1 ≤ j ∧ (j : ℤ) < opts.nsimu ∧ opts.adaptint ∣ j) ∧
    (opts.adaptint ≤ 0 → _) at hsch
  have hmem : ∀ a ∈ out.final.adaptLog, 0 < opts.adaptint ∧ opts.adaptint ∣ (a.at_ : ℤ) := by
    intro a ha
    have hm : a.at_ ∈ out.final.adaptedAt := by rw [← hat]; exact List.mem_map_of_mem ha
    by_cases hai : 0 < opts.adaptint
    · exact ⟨hai, (((hsch.1 hai).2 _).1 hm).2.2⟩
    · rw [(hsch.2 (by omega)).1] at hm
      simp at hm
  have hburn : ∀ a ∈ out.final.adaptLog, opts.burnintime ≤ (a.at_ : ℤ) := by
    intro a ha
    obtain ⟨h1, h2⟩ := hmem a ha
    have h3 := (hrec a ha).1
    exact (H.noBurnin h1).trans (Int.le_of_dvd (by omega) h2)
  have hsig : out.init.errModel.sigma2 = finVec v := by
    obtain ⟨o1, I, s0, hst, rfl, _⟩ := run_cov h
    obtain ⟨ms1, c1, c2, c3⟩ := hst.init.ms
    rw [hst.ms, hst.data] at c1
    exact fixedVariances_errModel H.variances.1 H.noSampling.2 c1 c2 c3
  set lp := logPost flags specs q r v with hlpdef
  have hout : ∀ θ, ¬ InLimits flags specs (finVec θ) → lp θ = none := fun θ hθ => if_neg hθ
  have hin : ∀ θ, InLimits flags specs (finVec θ) →
      lp θ = some (-(1 / 2) * ∑ i, q θ i / v i - 1 / 2 * r θ) := fun θ hθ => if_pos hθ
  have hlp : IsLogPost (InLimits flags specs) (SosThere U specs) (fun th => U.priorFun th mu sigma) v lp :=
    ⟨hout, fun θ q' r' h1 h2 h3 => by
      have e1 : q' = q θ := by
        funext i
        exact fin_injective (congrFun (H.sos θ _ h2) i)
      have e2 : r' = r θ := by
        have := H.prior mu sigma hmu θ
        rw [this] at h3
        exact (fin_injective h3).symm
      rw [hin θ h1, e1, e2]⟩
  -- factors of the stages
  have hSF : ∀ (j : ℕ) (R : Matrix (Fin (nS flags)) (Fin (nS flags)) ℝ),
      (covAfter out.init.cov (out.final.adaptLog.filter fun a => decide (a.at_ ≤ j))).R = finMx R →
      1 < opts.ntry → StageFactors ds opts.ntry.toNat R
        (covAfter out.init.cov (out.final.adaptLog.filter fun a => decide (a.at_ ≤ j))) := by
    intro j R hR hnt
    unfold covAfter at hR ⊢
    cases hl : (out.final.adaptLog.filter fun a => decide (a.at_ ≤ j)).getLast? with
    | none =>
      rw [hl] at hR
      obtain ⟨o1, I, s0, hst, rfl, _, hset, _⟩ := run_cov h
      exact C17_start H.exact.lapack hset H.noFactors (H.valid.delayed hnt).method (by
          change 0 < opts.ntry; omega) hds hds0 hR
    | some a =>
      rw [hl] at hR
      have ha : a ∈ out.final.adaptLog := List.mem_of_mem_filter (List.mem_of_getLast? hl)
      exact C17_adapted H.exact.lapack h hnt hds hds0 ha (hburn a ha) hR
  have hrun : AdaptiveRun L (newObj specs opts extra ms data : Obj XR flags m) out rows Q ε sc :=
    { lapack := H.exact.lapack
      run := ⟨U, G, fuel, s, h⟩
      sampled := H.valid.sampled
      initqcovn := H.noWeight
      notRam := H.exact.noRam
      rows := hrows
      qcov := hQ
      symm := by
        have := hQpd.isHermitian
        rwa [Matrix.IsHermitian, Matrix.conjTranspose_eq_transpose_of_trivial] at this
      adjust := hε
      scale := hsc }
  induction j with
  | zero =>
    rintro p rfl
    have hf0 : (out.final.adaptLog.filter fun a => decide (a.at_ ≤ 0)) = [] := by
      rw [List.filter_eq_nil_iff]
      intro a ha
      have := (hrec a ha).1
      simp; omega
    have hR0' : (covAfter out.init.cov (out.final.adaptLog.filter fun a => decide (a.at_ ≤ 0))).R =
        finMx (Matrix.of fun a b => R0 a b) := by
      rw [hf0]; exact hR0
    refine ⟨fun i hi => ?_, fun rec hrec' => ⟨hs0 _ hrec', ?_⟩, hR0', hu0⟩
    · obtain rfl : i = 0 := by omega
      rw [hrow0]
      congr 1
      funext i
      have := congrArg (fun l => l[i.val]?) hrow0'
      simp only [List.getElem?_map, sampled_get, Option.map_some] at this
      rw [List.getElem?_ofFn, dif_pos i.2] at this
      rw [Option.some.inj this]
      exact hx i
    · obtain ⟨ts, hts⟩ : ∃ ts, out.final.trace[0]? = some ts := by
        have := (List.getElem?_eq_some_iff.1 hrec').1
        exact ⟨_, List.getElem?_eq_getElem (by omega)⟩
      obtain ⟨-, c, hc, hcR, -⟩ := hst 0 rec ts hrec' hts
      rw [hcR, hc]
      exact hR0'
  | succ j ih =>
    rintro p rfl
    obtain ⟨g1, g2, g3, g4⟩ := ih (by omega) _ rfl
    set p0 := histAfter (factorMove D lp ds opts.ntry)
      (nextFactor H.triangular opts.adaptint (noAdaptOf flags specs) Q ε sc) x (fun a b => R0 a b) j s with hp0
    have hp1 : histAfter (factorMove D lp ds opts.ntry)
      (nextFactor H.triangular opts.adaptint (noAdaptOf flags specs) Q ε sc) x (fun a b => R0 a b) (j + 1) s =
      (update p0.1 (j + 1) ((factorMove D lp ds opts.ntry (p0.1 j).2 ((p0.1 j).1, p0.2)).1,
        nextFactor H.triangular opts.adaptint (noAdaptOf flags specs) Q ε sc j p0.1),
        (factorMove D lp ds opts.ntry (p0.1 j).2 ((p0.1 j).1, p0.2)).2) := rfl
    rw [hp1]
    obtain ⟨rec, hrec'⟩ : ∃ rec, out.final.moveLog[j]? = some rec :=
      ⟨_, List.getElem?_eq_getElem (by omega)⟩
    obtain ⟨ts, hts⟩ : ∃ ts, out.final.trace[j]? = some ts :=
      ⟨_, List.getElem?_eq_getElem (by omega)⟩
    -- the move
    have hdet : (Matrix.of (p0.1 j).2).det ≠ 0 :=
      ((Matrix.isUnit_iff_isUnit_det _).1 g4).ne_zero
    obtain ⟨y, hy1, hy2⟩ : ∃ y, out.results.chain[j + 1]? = some (finVec y) ∧
        factorMove D lp ds opts.ntry (p0.1 j).2 ((p0.1 j).1, p0.2) = (y, rec.rngAfter) := by
      obtain ⟨f1, f2, f3, -, f5, -⟩ := hdec j rec ts hrec' hts
      rw [zero_add, g1 j le_rfl] at f1
      rw [zero_add] at f2
      have hth := (Option.some.inj f1).symm
      obtain ⟨hit, c, hc, hcR, hcRDR, hcinv⟩ := hst j rec ts hrec' hts
      have hc' : c = covAfter out.init.cov (out.final.adaptLog.filter fun a => decide (a.at_ ≤ j)) := hc
      obtain ⟨-, prev, row, m1, m2, hmv⟩ := hmove j ts hts
      rw [g1 j le_rfl] at m1
      cases m1
      have hlimz : InLimits flags specs (finVec (p0.1 j).1) := hlim _ (List.mem_of_getElem? (g1 j le_rfl))
      have hlpz := hin _ hlimz
      obtain ⟨ss, w, e1, e2, e3⟩ := hsos j _ (g1 j le_rfl)
      rw [f2] at e1
      have hssz : rec.before.ss = finVec (q (p0.1 j).1) := by
        rw [Option.some.inj e1]; exact H.sos _ _ ⟨w, e2, e3⟩
      have hprz : rec.before.prior = .fin (r (p0.1 j).1) := by
        rw [f3, hth]; exact H.prior mu sigma hmu _
      have hsg : rec.before.sigma2 = finVec v := by rw [f5 (.inl hs2), hsig]
      let A : ℕ → Matrix (Fin (nS flags)) (Fin (nS flags)) ℝ := fun k =>
        Matrix.of (stageFactor ds opts.ntry (p0.1 j).2 k)
      let W : ℕ → Fin (nS flags) → Fin (nS flags) → ℝ := stageInverse ds opts.ntry (p0.1 j).2
      have hA0 : A 0 = Matrix.of (p0.1 j).2 := by
        refine (of_stageFactor ds opts.ntry (Matrix.of (p0.1 j).2) 0).trans ?_
        split <;> simp [stageScale]
      have hR : rec.R = finMx (A 0) := by
        rw [hcR, hc', g3, hA0]
      have hA : 1 < opts.ntry → ∃ l il, c.RDR = .some l ∧ c.invR = some il ∧ l.length = opts.ntry.toNat ∧
          ∀ k < opts.ntry.toNat, l[k]? = some (finMx (A k)) ∧ il[k]? = some (finMx (Matrix.of (W k))) := by
        intro hnt
        obtain ⟨l, il, d1, d2, d3, -, d5⟩ := hSF j _ g3 hnt
        rw [← hc'] at d1 d2
        refine ⟨l, il, d1, d2, d3, fun k hk => ?_⟩
        obtain ⟨b, b1, b2, b3⟩ := d5 k hk
        have hAk : A k = (stageScale ds k)⁻¹ • Matrix.of (p0.1 j).2 := by
          refine (of_stageFactor ds opts.ntry (Matrix.of (p0.1 j).2) k).trans ?_
          rw [if_pos hnt]
        refine ⟨by rw [hAk]; exact b1, ?_⟩
        rw [b2]
        congr 2
        change b = (A k)⁻¹
        rw [hAk]
        exact (Matrix.inv_eq_right_inv b3).symm
      have hF : FiniteStages (SosThere U specs) (fun th => U.priorFun th mu sigma) G rec.R rec.RDR rec.invR
          opts.ntry.toNat W := by
        refine ⟨fun θ => ⟨_, H.prior mu sigma hmu θ⟩, fun θ ss h => ⟨_, H.sos θ ss h⟩,
          fun s => ⟨D.z s, by rw [D.randn]⟩,
          fun s => ⟨D.u s, (D.range s).1, (D.range s).2, by rw [D.rand]⟩, ⟨A 0, hR⟩, ?_, ?_⟩
        · intro hnt l hl M hM
          obtain ⟨l', il, d1, d2, hll, d3⟩ := hA (by omega)
          rw [hcRDR, d1] at hl
          cases hl
          obtain ⟨k, hk, rfl⟩ := List.mem_iff_getElem.1 hM
          have := (d3 k (by omega)).1
          rw [List.getElem?_eq_getElem hk] at this
          exact ⟨_, Option.some.inj this⟩
        · intro l hl k hk
          obtain ⟨l', il, d1, d2, -, d3⟩ := hA (by omega)
          rw [hcinv, d2] at hl
          cases hl
          exact (d3 k (by omega)).2
      obtain ⟨y, y1, y2⟩ := iteration_move H.sosDim hF D (A := A) hR
        (fun l hl k R h1 h2 h3 => by
          obtain ⟨l', il, d1, d2, -, d3⟩ := hA (by omega)
          rw [hcRDR, d1] at hl
          cases hl
          rw [(d3 k h2).1] at h3
          exact (Option.some.inj h3).symm) H.variances.2 hlp hsg (x := (p0.1 j).1)
        ⟨hth, v, H.variances.2, hsg, by
          unfold pointAt
          rw [hlpz]
          exact ⟨q (p0.1 j).1, r (p0.1 j).1, hssz, hprz, rfl⟩⟩
        (by rw [hlpz]; simp) hit (row' := row) (by rw [hth]; exact hmv)
      rw [(g2 rec hrec').1] at y2
      refine ⟨y, by rw [m2, y1], ?_⟩
      rw [factorMove_of_unit D ds opts.ntry hdet]
      exact y2
    rw [hy2]
    -- the factor
    have hfac : (covAfter out.init.cov (out.final.adaptLog.filter fun a => decide (a.at_ ≤ j + 1))).R =
        finMx (Matrix.of (nextFactor H.triangular opts.adaptint (noAdaptOf flags specs) Q ε sc j p0.1)) ∧
        IsUnit (Matrix.of (nextFactor H.triangular opts.adaptint (noAdaptOf flags specs) Q ε sc j p0.1)) := by
      by_cases hdue : 0 < opts.adaptint ∧ opts.adaptint ∣ ((j + 1 : ℕ) : ℤ)
      · have hm : j + 1 ∈ out.final.adaptedAt := ((hsch.1 hdue.1).2 _).2 ⟨by omega, hj, hdue.2⟩
        rw [← hat] at hm
        obtain ⟨a, ha, hja⟩ := List.mem_map.1 hm
        obtain ⟨-, hb, hafter⟩ := hrec a ha
        rw [hja] at hb hafter
        have hlt : (fun b : AdaptRecord XR (nS flags) => decide (b.at_ < j + 1)) =
            fun b => decide (b.at_ ≤ j) := by
          funext b; simp [Nat.lt_succ_iff]
        rw [hlt] at hb
        have hRa := (adapted_factor_eq hrun ha (hburn a ha)).2
        rw [hja, hb, g3] at hRa
        have htake : rows.take (j + 1) = (List.range (j + 1)).map fun i => (p0.1 i).1 := by
          apply List.ext_getElem?
          intro i
          rw [List.getElem?_take, List.getElem?_map]
          by_cases hi : i < j + 1
          · have := g1 i (by omega)
            rw [hrows, List.getElem?_map] at this
            obtain ⟨z, hz1, hz2⟩ := Option.map_eq_some_iff.1 this
            have hz : z = (p0.1 i).1 := by
              funext k; exact fin_injective (congrFun hz2 k)
            rw [if_pos hi, List.getElem?_range hi, hz1, hz]
            rfl
          · rw [if_neg hi]
            rw [List.getElem?_eq_none (by simpa using hi)]
            rfl
        rw [htake, checkForSingular_updated H.triangular H.exact.lapack
          (mixedCov_symm hrun.symm (sampleCovM_symm _))] at hRa
        have hnf : nextFactor H.triangular opts.adaptint (noAdaptOf flags specs) Q ε sc j p0.1 =
            updatedFactor H.triangular ε sc (fun a b => mixedCov (noAdaptOf flags specs) Q
              (sampleCovM ((List.range (j + 1)).map fun i => (p0.1 i).1)) a b) (p0.1 j).2 := if_pos hdue
        rw [← hafter, hnf]
        refine ⟨hRa, ?_⟩
        obtain ⟨R, hR, hu⟩ := hadapt a ha
        rw [hRa] at hR
        rw [← finMx_injective hR] at hu
        exact hu
      · have hnone : (out.final.adaptLog.filter fun a => decide (a.at_ ≤ j + 1)) =
            out.final.adaptLog.filter fun a => decide (a.at_ ≤ j) := by
          apply List.filter_congr
          intro a ha
          have : a.at_ ≠ j + 1 := fun he => hdue (by rw [← he]; exact hmem a ha)
          simp only [decide_eq_decide]
          omega
        have hnf : nextFactor H.triangular opts.adaptint (noAdaptOf flags specs) Q ε sc j p0.1 = (p0.1 j).2 :=
          if_neg hdue
        rw [hnone, hnf]
        exact ⟨g3, g4⟩
    dsimp only
    rw [update_self]
    refine ⟨fun i hi => ?_, fun rec1 hrec1 => ?_, hfac⟩
    · by_cases hi' : i = j + 1
      · subst hi'
        rw [update_self, hy1]
      · rw [update_of_ne hi']
        exact g1 i (by omega)
    · obtain ⟨s', k1, -, k3, -⟩ := hseq j rec hrec'
      refine ⟨by rw [k1 rec1 hrec1, k3 hs2], ?_⟩
      obtain ⟨ts1, hts1⟩ : ∃ ts, out.final.trace[j + 1]? = some ts := by
        have := (List.getElem?_eq_some_iff.1 hrec1).1
        exact ⟨_, List.getElem?_eq_getElem (by omega)⟩
      obtain ⟨-, c, hc, hcR, -⟩ := hst (j + 1) rec1 ts1 hrec1 hts1
      rw [hcR, hc]
      exact hfac.1

/-- **C99.** Every iteration of an adaptive run is a transition that keeps the posterior, chosen by the
history.  There is a family of Markov kernels `P R`, one for each proposal factor `R`, all of which leave the
posterior invariant; and for every run, whatever the generator state, the rows of the chain and the factors in
force are measurable functions of the state, the factors are invertible, and row `j + 1` given all rows and
factors up to `j` has the law `P R` of the row `j`, where `R` is the factor in force: the integral of any
function `g` of the history over the event that row `j + 1` falls into `B` is that of `g` times the
transition probability. -/
theorem C99_transitions_keep_posterior [IsProbabilityMeasure μ] {U : UserFuns XR N (nS flags) m} {L : Lapack XR}
    {specs : Fin N → ParamSpec XR} {opts : SimOpts XR}
    {extra : ExtraOpts XR (nS flags)} {ms : ModelSettings XR} {data : Data}
    {q : (Fin (nS flags) → ℝ) → Fin m → ℝ} {r : (Fin (nS flags) → ℝ) → ℝ} {v : Fin m → ℝ}
    (H : AdaptiveProblem U G L specs opts extra ms data q r v) (D : IdealRng G (nS flags) μ) (fuel : ℕ) :
    ∃ P : (Fin (nS flags) → Fin (nS flags) → ℝ) → Kernel (Fin (nS flags) → ℝ) (Fin (nS flags) → ℝ),
      (∀ R, IsMarkovKernel (P R) ∧ (P R).Invariant (posteriorMeasure flags specs q r v)) ∧
    ∃ (row : ℕ → σ → Fin (nS flags) → ℝ) (factor : ℕ → σ → Fin (nS flags) → Fin (nS flags) → ℝ),
      (∀ j, Measurable (row j) ∧ Measurable (factor j)) ∧
      (∀ s, ∃ out, runSimulation U G L fuel (newObj specs opts extra ms data) s false = .ok out ∧
        (∀ j : ℕ, (j : ℤ) < opts.nsimu → out.results.chain[j]? = some (finVec (row j s))) ∧
        ∀ j rec, out.final.moveLog[j]? = some rec → rec.R = finMx (Matrix.of (factor j s)) ∧
          IsUnit (Matrix.of (factor j s))) ∧
      ∀ (j : ℕ) (B : Set (Fin (nS flags) → ℝ)), MeasurableSet B →
        ∀ g : (Fin (j + 1) → (Fin (nS flags) → ℝ) × (Fin (nS flags) → Fin (nS flags) → ℝ)) → ℝ≥0∞, Measurable g →
          ∫⁻ s in {s | row (j + 1) s ∈ B}, g (fun i => (row i s, factor i s)) ∂μ =
            ∫⁻ s, P (factor j s) (row j s) B * g (fun i => (row i s, factor i s)) ∂μ := by
  obtain ⟨s0⟩ := nonempty_of_isProbabilityMeasure μ
  obtain ⟨ds, hds, hds0⟩ := H.exact.drscale
  have hds : extra.drscale = ds.map .fin := hds
  obtain ⟨ε, hε⟩ := H.exact.adjust
  have hε : extra.qcovAdjust = .fin ε := hε
  obtain ⟨sc, hsc⟩ := H.exact.scale
  have hsc : IsScale opts.adascale (nS flags) sc := hsc
  have hx : ∃ x : Fin (nS flags) → ℝ, ∀ i, (specs (parindOf flags i)).theta0 = .fin (x i) := by
    have := fun i => H.valid.initial (parindOf flags i)
    choose x hx using this
    exact ⟨x, hx⟩
  obtain ⟨x, hx⟩ := hx
  obtain ⟨I0, st0, t0, Q, hset0, ht0, hQ0, hpd⟩ := valid_setup H.exact H.valid s0
  obtain ⟨R0, hR0, hu0⟩ := (start_fin (fuel := 0) H.exact hset0 nofun H.valid.delayed ht0 hQ0 hpd).2.cov.R
  rw [(setup_start hset0).1.cov] at hR0
  have hdens : (fun θ => (pointAt (logPost flags specs q r v) θ).density) = posteriorDensity flags specs q r v :=
    funext (logPost_density v)
  have hd : Measurable fun θ => (pointAt (logPost flags specs q r v) θ).density := by
    rw [hdens]; exact measurable_posteriorDensity H.measurable.1 H.measurable.2
  let T := factorMove D (logPost flags specs q r v) ds opts.ntry
  let next := nextFactor H.triangular opts.adaptint (noAdaptOf flags specs) Q ε sc
  have hT : Measurable fun p : (Fin (nS flags) → Fin (nS flags) → ℝ) × (Fin (nS flags) → ℝ) × σ => T p.1 p.2 :=
    measurable_factorMove D hd ds opts.ntry
  have hf : ∀ R, Fresh μ (T R) := fresh_factorMove D hd hds0 opts.ntry
  have hn : ∀ j, Measurable (next j) := measurable_nextFactor _ _ _ _ _ _
  have hinv : ∀ R, MeasurePreserving (T R) ((posteriorMeasure flags specs q r v).prod μ)
      ((posteriorMeasure flags specs q r v).prod μ) := by
    intro R
    have := factorMove_invariant D hd hds0 opts.ntry R
    simp only [congrFun hdens] at this
    exact this
  let Hs : ℕ → σ → (ℕ → (Fin (nS flags) → ℝ) × (Fin (nS flags) → Fin (nS flags) → ℝ)) × σ :=
    histAfter T next x fun a b => R0 a b
  have hmeas : ∀ j, Measurable fun s => (Hs j s).1 j := fun j =>
    (measurable_pi_apply j).comp (measurable_fst.comp (histAfter_fresh hT hf hn x _ j).1)
  refine ⟨fun R => rowKernel μ (T R) (hf R).measurable, fun R => ⟨rowKernel_markov _, ?_⟩,
    fun j s => ((Hs j s).1 j).1, fun j s => ((Hs j s).1 j).2,
    fun j => ⟨measurable_fst.comp (hmeas j), measurable_snd.comp (hmeas j)⟩, fun s => ?_, ?_⟩
  · haveI : SFinite (posteriorMeasure flags specs q r v) := by unfold posteriorMeasure; infer_instance
    exact rowKernel_invariant _ (hinv R)
  · obtain ⟨I, st, t, Q', hset, ht, hQ, hpd'⟩ := valid_setup H.exact H.valid s
    have hII : I.cov = I0.cov := init_cov_const H.valid.noRestart hset hset0
    rcases C65_exact_run_returns (fuel := fuel) H.exact hset H.valid.nsimu H.valid.sampled H.valid.sos
      H.valid.delayed H.valid.data ht hQ hpd' with ⟨out, hrun, hfin, hadapt⟩ | ⟨_, h2, _⟩
    · have hcov : out.init.cov = I0.cov := by
        obtain ⟨o1, I1, s1, hst, rfl, _, hset1, _⟩ := run_cov hrun
        exact init_cov_const H.valid.noRestart hset1 hset0
      have hrows : ∃ rows : List (Fin (nS flags) → ℝ), out.results.chain = rows.map finVec := by
        generalize out.results.chain = l at hfin
        clear * - hfin
        induction l with
        | nil => exact ⟨[], rfl⟩
        | cons a l ih =>
          obtain ⟨b, rfl⟩ := hfin a (by simp)
          obtain ⟨rows, rfl⟩ := ih fun row hr => hfin row (by simp [hr])
          exact ⟨b :: rows, rfl⟩
      obtain ⟨rows, hrows⟩ := hrows
      have key := adaptive_rows H D hds hds0 hε hsc hx hrun (by rw [hcov]; exact hR0) hu0
        (by rw [hcov]; exact hQ0) hpd hrows hadapt
      refine ⟨out, hrun, fun j hj => (key j hj _ rfl).1 j le_rfl, fun j rec hrec => ?_⟩
      have hj : (j : ℤ) < opts.nsimu := by
        have hnan : ∀ k, PyFloat.isnan (specs k).theta0 = false := fun k => by
          obtain ⟨t, ht⟩ := H.valid.initial k
          change (specs k).theta0 = _ at ht
          rw [ht]; rfl
        obtain ⟨k0, mu', sigma', -, -, hl, -⟩ := C72_decisions .start H.names hnan hrun
        have hl : (out.final.moveLog.length : ℤ) + 1 = opts.nsimu := hl
        have := (List.getElem?_eq_some_iff.1 hrec).1
        omega
      exact ⟨((key j hj _ rfl).2.1 rec hrec).2, (key j hj _ rfl).2.2.2⟩
    · rw [(setup_start hset).1.init.opts] at h2
      simp only [checkDependentSimulationOptions, H.noSampling.1, H.noSampling.2, newObj] at h2
      simp at h2
  · intro j B hB g hg
    have hr : ∀ i : Fin (j + 1), ∀ s, (Hs j s).1 i = (Hs i s).1 i := fun i s =>
      histAfter_stable (by omega) s
    have hg' : Measurable fun h : ℕ → (Fin (nS flags) → ℝ) × (Fin (nS flags) → Fin (nS flags) → ℝ) =>
        g fun i : Fin (j + 1) => h i :=
      hg.comp (measurable_pi_iff.2 fun i => measurable_pi_apply _)
    have := histAfter_law hT hf hn x (fun a b => R0 a b) j hB hg'
    change ∫⁻ s in {s | ((Hs (j + 1) s).1 (j + 1)).1 ∈ B}, g (fun i : Fin (j + 1) => (Hs j s).1 i) ∂μ =
      ∫⁻ s, μ {s' | (T ((Hs j s).1 j).2 (((Hs j s).1 j).1, s')).1 ∈ B} *
        g (fun i : Fin (j + 1) => (Hs j s).1 i) ∂μ at this
    simp only [hr] at this
    refine this.trans (lintegral_congr fun s => ?_)
    rw [rowKernel_apply _ _ hB]

/-! ### Example -/

/-- The posterior `exp(-θ²/2)` on `[-10, 10]`, sampled by DRAM: two stages of delayed rejection and an
adaptation every 100 iterations.  The hypotheses of C99 are met. -/
theorem XRun.adaptiveProblem (k : ℤ) (hk : 1 < k) :
    AdaptiveProblem (m := 1) XRun.user (coinRng (nS XRun.flags)) choleskyLapack
    (XRun.specs true) (defineSimulationOptions { nsimu := k, method := .dram })
    (XRun.extra 1 1) XRun.settings XRun.data (fun θ _ => θ ⟨0, by decide⟩ * θ ⟨0, by decide⟩) (fun _ => 0)
    (fun _ => 1) where
  exact := {
    lapack := choleskyLapack_ok
    draws := fun _ => ⟨_, rfl⟩
    adjust := ⟨1, rfl⟩
    burnin := ⟨10, rfl, by norm_num⟩
    drscale := ⟨[5], rfl, by simp⟩
    noRam := rfl
    weight := .inl rfl
    scale := ⟨_, .inl ⟨rfl, rfl⟩⟩
    RDR := nofun }
  valid := {
    nsimu := hk
    sampled := by decide
    initial := fun _ => ⟨_, rfl⟩
    limits := fun k _ => by simp [newObj, XRun.specs]
    localFit := .inl rfl
    sos := fun v => by simp [XRun.user]
    data := show XRun.data.n ≠ [] by decide
    settings := ⟨fun v hv => by cases hv; exact .inl rfl, nofun, nofun, .inr (.inl rfl),
      .inl (show XRun.data.n.length ≤ 1 by decide)⟩
    settingsFresh := rfl
    observations := rfl
    covariance := .inl ⟨fun _ => 1, rfl, fun _ => one_pos⟩
    drscale := by change [XR.fin 5] ≠ []; simp
    factors := nofun
    delayed := fun _ => ⟨.inr rfl, rfl, fun _ => ⟨show (0 : ℤ) ≤ 100 by decide, by
      change [XR.fin 5] ≠ []; simp⟩⟩
    noRestart := rfl }
  names := by decide
  triangular := choleskyLapack_factor _
  noBurnin := fun _ => show (0 : ℤ) ≤ 100 by decide
  noWeight := rfl
  noSampling := ⟨rfl, rfl⟩
  noFactors := rfl
  sosDim := one_pos
  sos := (XRun.fixedProblem k hk).sos
  prior _ _ _ _ := rfl
  variances := ⟨.inr (.inl ⟨1, rfl, fun _ => rfl⟩), fun _ => one_pos⟩
  measurable := ⟨by fun_prop, measurable_const⟩

/-- C99 for that problem: 1000 rows, an adaptation at iteration 100; and the posterior is not the zero measure. -/
example : (∃ (P : _ → Kernel (Fin (nS XRun.flags) → ℝ) (Fin (nS XRun.flags) → ℝ))
      (row : ℕ → CoinState (nS XRun.flags) → Fin (nS XRun.flags) → ℝ)
      (factor : ℕ → CoinState (nS XRun.flags) → Fin (nS XRun.flags) → Fin (nS XRun.flags) → ℝ),
    (∀ R, (P R).Invariant (posteriorMeasure (m := 1) XRun.flags (XRun.specs true)
        (fun θ _ => θ ⟨0, by decide⟩ * θ ⟨0, by decide⟩) (fun _ => 0) (fun _ => 1))) ∧
    (∀ s, ∃ out, runSimulation XRun.user (coinRng (nS XRun.flags)) choleskyLapack 0
      (newObj (m := 1) (XRun.specs true) (defineSimulationOptions { nsimu := 1000, method := .dram })
        (XRun.extra 1 1) XRun.settings XRun.data) s false = .ok out ∧
      100 ∈ out.final.adaptedAt ∧ out.results.chain[999]? = some (finVec (row 999 s))) ∧
    ∀ B, MeasurableSet B → coinLaw _ {s | row 999 s ∈ B} =
      ∫⁻ s, P (factor 998 s) (row 998 s) B ∂coinLaw _) ∧
    posteriorDensity (m := 1) XRun.flags (XRun.specs true)
      (fun θ _ => θ ⟨0, by decide⟩ * θ ⟨0, by decide⟩) (fun _ => 0) (fun _ => 1) (fun _ => 3) =
      Real.exp (-(9 / 2)) := by
  obtain ⟨P, hP, row, factor, -, h2, h3⟩ :=
    C99_transitions_keep_posterior (XRun.adaptiveProblem 1000 (by decide)) (coinIdeal _) 0
  refine ⟨⟨P, row, factor, fun R => (hP R).2, fun s => ?_, fun B hB => ?_⟩, ?_⟩
  · obtain ⟨out, h, h4, -⟩ := h2 s
    refine ⟨out, h, ?_, h4 999 (show (999 : ℤ) < 1000 by decide)⟩
    exact (((C14_adaptation_schedule_partial h).1 (show (0 : ℤ) < 100 by decide)).2 100).2
      ⟨by decide, show (100 : ℤ) < 1000 by decide, show (100 : ℤ) ∣ 100 by decide⟩
  · have := h3 998 B hB (fun _ => 1) measurable_const
    simpa using this
  · have hin : InLimits XRun.flags (XRun.specs true) (finVec fun _ => 3) := by
      intro i k _
      simp [XRun.specs, finVec]
      norm_num
    unfold posteriorDensity
    rw [Set.indicator_of_mem (by exact hin)]
    congr 1
    simp
    norm_num

end Verif
