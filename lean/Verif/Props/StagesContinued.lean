import Verif.Props.Stages
import Verif.Props.VarianceHistory

/-! # C78 for continued runs -/

set_option linter.unusedSectionVars false

namespace Verif

section exact
variable {σ : Type} {N m : ℕ}

/-- **C78**, in exact arithmetic, whatever the history of the object: for a run from scratch or a
continued one, the first stage factor of iteration `j` is a real matrix `A 0`, that of stage `k + 1` is
`A k`, which is `A 0` divided by the product of the first `k` scale factors, and `W k` is its inverse.
The path starts in row `k0 + j` of the chain (`k0` rows precede the run's start) with the posterior
density there, taken with the error variance in the same row.  Every stage proposes the row plus a
normal draw times `A k`, and accepts exactly if the proposal is inside the limits and the uniform draw
is below the delayed-rejection acceptance probability of the path, computed with the user's posterior
density and the Gaussian proposals of the factors `A k`. -/
theorem C78_continued {flags : Fin N → Bool} {U : UserFuns XR N (nS flags) m} {specs : Fin N → ParamSpec XR}
    {opts : SimOpts XR} {extra : ExtraOpts XR (nS flags)} {ms : ModelSettings XR} {data : Data}
    {o : Obj XR flags m} (ho : Reachable U (newObj specs opts extra ms data) o)
    {G : Rng σ XR} {L : Lapack XR} {fuel : ℕ} {rng : σ} {up : Bool} {out : RunOut XR σ flags m}
    (h : runSimulation U G L fuel o rng up = .ok out) (hx : ExactInputs G L o)
    (hch : up = true → ∀ row ∈ o.chains.chain, ∃ r, row = finVec r)
    (hnames : (((List.finRange N).filter flags).map fun k => (specs k).name).Nodup)
    (hnan : ∀ k, PyFloat.isnan (specs k).theta0 = false)
    (hm : 0 < m) (hn : 0 < nS flags) (hsos : Computes U.style1 U.sosFun) (hns : 1 < o.opts.nsimu)
    (hdr : 1 < o.opts.ntry → SupportsDR o.opts o.extra.drscale) (hRDR : o.extra.RDR = none) (hobs : o.data.n ≠ [])
    {t : Fin (nS flags) → ℝ} (ht : out.init.initialSet.theta = finVec t)
    {Q : Matrix (Fin (nS flags)) (Fin (nS flags)) ℝ} (hQ : out.init.cov.qcov = finMx Q) (hpd : Q.PosDef)
    {ds : List ℝ} (hds : o.extra.drscale = ds.map .fin)
    (hprior : ∀ mu sigma, UserPrior flags specs mu sigma → ∀ θ : Fin (nS flags) → ℝ,
      ∃ r : ℝ, U.priorFun (finVec θ) mu sigma = .fin r)
    (hss : ∀ (θ : Fin (nS flags) → ℝ) ss, SosThere U specs (finVec θ) ss → ∃ q : Fin m → ℝ, ss = finVec q)
    (hrand : ∀ s, ∃ u : ℝ, 0 ≤ u ∧ u < 1 ∧ (G.rand s).1 = .fin u)
    (hvar : ∀ c, out.results.s2chain = some c → ∀ x ∈ c, PosVar x)
    (hvar0 : out.results.s2chain = none → PosVar out.init.errModel.sigma2) :
    ∃ mu sigma, UserPrior flags specs mu sigma ∧
      (out.final.moveLog.length : ℤ) + 1 = o.opts.nsimu ∧ out.final.trace.length = out.final.moveLog.length ∧
      ∃ k0, k0 + out.final.moveLog.length + 1 = out.results.chain.length ∧
      ∀ j rec ts, out.final.moveLog[j]? = some rec → out.final.trace[j]? = some ts →
      ∃ (x : Fin (nS flags) → ℝ) (q v : Fin m → ℝ) (r : ℝ)
        (A W : ℕ → Matrix (Fin (nS flags)) (Fin (nS flags)) ℝ) (P : ℕ → Point (nS flags)) (st : ℕ → σ),
        out.results.chain[k0 + j]? = some (finVec x) ∧ out.results.sschain[k0 + j]? = some (finVec q) ∧
        (∀ c, out.results.s2chain = some c → c[k0 + j]? = some (finVec v)) ∧
        (out.results.s2chain = none → out.init.errModel.sigma2 = finVec v) ∧ (∀ i, 0 < v i) ∧
        U.priorFun (finVec x) mu sigma = .fin r ∧
        P 0 = ⟨x, some (-(1 / 2) * ∑ i, q i / v i - 1 / 2 * r)⟩ ∧
        ((((out.final.adaptLog.filter fun a => decide (a.at_ ≤ j)).getLast?.map
            fun a => a.after).getD out.init.cov).R = finMx (A 0)) ∧
        (1 < o.opts.ntry → ∀ k, A k = (stageScale ds k)⁻¹ • A 0) ∧
        (1 < o.opts.ntry → ∀ k < o.opts.ntry.toNat, A k * W k = 1) ∧
        st 0 = rec.rng ∧ (ts.length : ℤ) ≤ max 1 o.opts.ntry ∧
        ∀ i t', ts[i]? = some t' →
          StageIs (InLimits flags specs) (SosThere U specs) (fun th => U.priorFun th mu sigma) G (finVec x) v
            W P i (finMx (A i)) (st i) t' ∧
          (i + 1 < ts.length →
            (InLimits flags specs t'.theta → st (i + 1) = (G.rand (G.randn (nS flags) (st i)).2).2) ∧
            (¬ InLimits flags specs t'.theta → st (i + 1) = (G.randn (nS flags) (st i)).2)) := by
  obtain ⟨mu, sigma, hmu, hstages⟩ := C78_stages ho hnan h
  have hx0 : ∀ d ∈ ds, d ≠ 0 := by
    obtain ⟨ds', h2, h3⟩ := hx.drscale
    rw [hds] at h2
    rwa [List.map_injective_iff.2 XR.fin_injective h2]
  obtain ⟨hfinite, hadapt⟩ : (∀ row ∈ out.results.chain, ∃ r, row = finVec r) ∧
      ∀ r ∈ out.final.adaptLog, ∃ R, r.after.R = finMx R ∧ IsUnit R := by
    obtain ⟨o1, I, s0, hst, rfl, _, hset, _⟩ := run_cov h
    rcases exact_run_returns (fuel := fuel) hx hset (fun hup => by
        subst hup
        obtain ⟨_, _, _, _, _, _, _, _, ⟨res, hres, _⟩, _⟩ := setup_continue hset
        exact reachable_ready rfl ho (by rw [hres]; rfl)) hch hns hn hsos hdr hobs ht hQ hpd with
      ⟨out', h4, h5⟩ | ⟨h4, _⟩
    · rw [h] at h4
      cases h4
      exact h5
    · rw [h] at h4; cases h4
  obtain ⟨k0, mu', sigma', hmu', hk0, hlen, htr, hrows⟩ := C72_decisions ho hnames hnan h
  obtain ⟨rfl, rfl⟩ := hmu.unique hmu'
  have hvrow : ∀ c, out.results.s2chain = some c → ∀ (j : ℕ) rec, out.final.moveLog[j]? = some rec →
      c[k0 + j]? = some rec.before.sigma2 := by
    intro c hc j rec hr
    obtain ⟨e1, k1, e2, e3⟩ := C157_variance XR.lit_one_mul ho hnames hnan h hc
    have hk : k0 = k1 := by omega
    rw [hk]
    exact (e3 j rec hr).2
  refine ⟨mu, sigma, hmu, hlen, htr, k0, hk0, fun j rec ts hr hts => ?_⟩
  obtain ⟨f1, f2, f3, f4, f5, f6, -⟩ := hrows j rec ts hr hts
  obtain ⟨hit, c, hc, hcR, hcRDR, hcinv⟩ := hstages j rec ts hr hts
  -- the factors
  obtain ⟨R, W, hR, hWR⟩ : ∃ (R : Matrix (Fin (nS flags)) (Fin (nS flags)) ℝ)
      (W : ℕ → Matrix (Fin (nS flags)) (Fin (nS flags)) ℝ), c.R = finMx R ∧
      (1 < o.opts.ntry → ∃ l il, c.RDR = .some l ∧ c.invR = some il ∧ l.length = o.opts.ntry.toNat ∧
        ∀ k < o.opts.ntry.toNat, l[k]? = some (finMx ((stageScale ds k)⁻¹ • R)) ∧
          il[k]? = some (finMx (W k)) ∧ ((stageScale ds k)⁻¹ • R) * W k = 1) := by
    have hcv : ∃ R : Matrix (Fin (nS flags)) (Fin (nS flags)) ℝ, c.R = finMx R ∧
        (1 < o.opts.ntry → StageFactors ds o.opts.ntry.toNat R c) := by
      obtain ⟨o1, I, s0, hst, rfl, _, hset, _⟩ := run_cov h
      cases hl : (out.final.adaptLog.filter fun a => decide (a.at_ ≤ j)).getLast? with
      | none =>
        rw [hl] at hc
        obtain rfl : c = out.init.cov := hc
        obtain ⟨R, hR, -⟩ := (start_fin (fuel := fuel) hx hset hch hdr ht hQ hpd).2.cov.R
        rw [hst.cov] at hR
        exact ⟨R, hR, fun hnt => C17_start hx.lapack hset hRDR (hdr hnt).method (by omega) hds hx0 hR⟩
      | some a =>
        rw [hl] at hc
        obtain rfl : c = a.after := hc
        have ha : a ∈ out.final.adaptLog :=
          List.mem_of_mem_filter (List.mem_of_getLast? hl)
        obtain ⟨R, hR, -⟩ := hadapt a ha
        refine ⟨R, hR, fun hnt => C17_adapted hx.lapack h hnt hds hx0 ha ?_ hR⟩
        have hmem : a.at_ ∈ out.final.adaptedAt := by
          rw [← adaptLog_at h]; exact List.mem_map_of_mem ha
        have hsch := C14_adaptation_schedule_partial h
        by_cases hai : 0 < o.opts.adaptint
        · obtain ⟨h1, -, h3⟩ := ((hsch.1 hai).2 _).1 hmem
          have := Int.le_of_dvd (by omega) h3
          exact le_trans ((hdr hnt).burnin hai).1 this
        · rw [(hsch.2 (by omega)).1] at hmem
          simp at hmem
    obtain ⟨R, hR, hSF⟩ := hcv
    by_cases hnt : 1 < o.opts.ntry
    · obtain ⟨l, il, e1, e2, e3, e4, e5⟩ := hSF hnt
      choose! W hW using e5
      exact ⟨R, W, hR, fun _ => ⟨l, il, e1, e2, e3, hW⟩⟩
    · exact ⟨R, fun _ => 0, hR, fun h => absurd h hnt⟩
  obtain ⟨x, hx'⟩ := hfinite _ (List.mem_of_getElem? f1)
  obtain ⟨ss, v1, e1, e2, e3⟩ := (C03_sums_of_squares_belong_to_rows ho h).2 (k0 + j) _ f1
  rw [f2] at e1
  cases e1
  rw [hx'] at e2
  obtain ⟨q, hq⟩ := hss x _ ⟨v1, e2, e3⟩
  obtain ⟨r, hr0⟩ := hprior mu sigma hmu x
  have hpv : PosVar rec.before.sigma2 := by
    cases hs2 : out.results.s2chain with
    | none => rw [f5 (.inl hs2)]; exact hvar0 hs2
    | some c => exact hvar c hs2 _ (List.mem_of_getElem? (hvrow c hs2 j rec hr))
  obtain ⟨v, hv, hsig⟩ := hpv
  have hs0 : stageScale ds 0 = 1 := by simp [stageScale]
  have hF : FiniteStages (SosThere U specs) (fun th => U.priorFun th mu sigma) G rec.R rec.RDR rec.invR
      o.opts.ntry.toNat W := by
    refine ⟨hprior mu sigma hmu, hss, hx.draws, hrand, ⟨R, by rw [hcR]; exact hR⟩, ?_, ?_⟩
    · intro hnt l hl M hM
      obtain ⟨l', il, d1, d2, d3, d4⟩ := hWR (by omega)
      rw [hcRDR, d1] at hl
      cases hl
      obtain ⟨k, hk, rfl⟩ := List.mem_iff_getElem.1 hM
      have := (d4 k (by omega)).1
      rw [List.getElem?_eq_getElem hk] at this
      exact ⟨_, Option.some.inj this⟩
    · intro l hl k hk
      obtain ⟨l', il, d1, d2, d3, d4⟩ := hWR (by omega)
      rw [hcinv, d2] at hl
      cases hl
      exact (d4 k (by omega)).2.1
  have hpr : rec.before.prior = .fin r := by rw [f3, hx']; exact hr0
  obtain ⟨P, st, p1, p2, p3⟩ := C78_iteration_exact hm hF hv hsig
    (p0 := ⟨x, some (-(1 / 2) * ∑ i, q i / v i - 1 / 2 * r)⟩)
    ⟨hx', v, hv, hsig, q, r, hq, hpr, rfl⟩ (by simp) hit
  refine ⟨x, q, v, r, fun k => if 1 < o.opts.ntry then (stageScale ds k)⁻¹ • R else R, W, P, st,
    by rw [f1, hx'], by rw [f2, hq], fun c hs2 => by rw [hvrow c hs2 j rec hr, hsig]; rfl,
    fun hs2 => by rw [← f5 (.inl hs2), hsig]; rfl, hv, hr0, p1, ?_, ?_, ?_, p2, ?_, fun i t' ht' => ?_⟩
  · rw [← hc, hR]; simp [hs0]
  · intro hnt k
    simp [hnt, hs0]
  · intro hnt k hk
    simp only [hnt, if_true]
    obtain ⟨l', il, d1, d2, d3, d4⟩ := hWR hnt
    exact (d4 k hk).2.2
  · by_contra hlt
    have hlt : 1 < ts.length ∧ o.opts.ntry < ts.length := by omega
    obtain ⟨Ri, -, d2, -⟩ := p3 (ts.length - 1) _ (List.getElem?_eq_getElem (by omega))
    have := (d2 (by omega)).1
    change _ < o.opts.ntry.toNat at this
    omega
  · obtain ⟨Ri, d1, d2, d3, d4⟩ := p3 i t' ht'
    refine ⟨?_, d4⟩
    rw [hx'] at d3
    convert d3 using 1
    by_cases hi : i = 0
    · rw [d1 hi, hi, hcR, hR]; simp [hs0]
    · obtain ⟨hi', l, l1, l2⟩ := d2 (by omega)
      change i < o.opts.ntry.toNat at hi'
      have hnt : 1 < o.opts.ntry := by omega
      obtain ⟨l', il, g1, g2, g3, g4⟩ := hWR hnt
      rw [hcRDR, g1] at l1
      cases l1
      rw [(g4 i hi').1] at l2
      simp only [if_pos hnt]
      exact Option.some.inj l2

end exact

/-- the hypotheses of `C78_continued` can be met by a continued run with an adaptation and sampled
error variances: the first iteration of the second run starts from row 4 of the chain, with the error
variance of that row, and decides by the acceptance probability of the posterior -/
example : ∃ (out out' : RunOut XR Unit XRun.flags 1) (c : List (Vec XR 1)) (ts : _) (t : _) (x v r q : ℝ)
    (W : ℕ → Matrix (Fin (nS XRun.flags)) (Fin (nS XRun.flags)) ℝ) (P : ℕ → Point (nS XRun.flags)) (u : ℝ),
    runSimulation XRun.user XRun.rng exactLapack 1 (XRun.obj XRun.contArgs) () false = .ok out ∧
    runSimulation XRun.user XRun.rng exactLapack 1
      { out.obj with opts := defineSimulationOptions XRun.contArgs, extra := XRun.extra 1 1 } () true
      = .ok out' ∧
    out'.results.chain.length = 9 ∧ out'.results.chain[4]? = some (finVec fun _ => x) ∧
    out'.results.s2chain = some c ∧ c[4]? = some (finVec fun _ => v) ∧ 0 < v ∧
    P 0 = ⟨fun _ => x, some (-(1 / 2) * (q / v) - 1 / 2 * r)⟩ ∧
    out'.final.trace[0]? = some (t :: ts) ∧
    (t.accepted = true ↔ InLimits XRun.flags (XRun.specs true) t.theta ∧
      u < drAlpha (fun k => W k) 0 P) := by
  obtain ⟨out, out', c, h, h', hrows, hrows', hc, hlc, hpos⟩ := XRun.cont_pos
  have hre : Reachable XRun.user (XRun.obj XRun.contArgs) out.obj := .run _ _ _ _ _ _ .start h
  obtain ⟨p1, p2, p3, r1, r2, r3, r4, r5⟩ := runSimulation_ok h
  have hst := (setup_fresh r1).1
  obtain rfl := (setup_fresh r1).2.2.2.2.2.2.2.1 rfl
  have hcov := initializeSimulation_cov (setupSimulator_init r1)
  obtain ⟨_, ⟨R, hR, _⟩, _⟩ := initCovState_ok hcov
  have hq : p2.cov.qcov = finMx 1 := by rw [XRun.setupR hR, Matrix.diagonal_one]
  obtain ⟨_, _, _, _, _, _, _, g2, _⟩ := generateResults_ok r3
  have hs2 : out.obj.chains.s2chain.isSome := by
    rw [r5, ← g2]
    exact (run_updatesigma h).2.1 (.inr rfl)
  obtain ⟨o2, I2, s2, h2, hq2, _, hth2⟩ := C70_continuation_set_up_partial (L := exactLapack) (rng := ())
    (o0 := XRun.obj XRun.contArgs) rfl hre (by rw [r5]; rfl) hs2 rfl one_pos (.inl rfl)
    (by intro k _; simp [ofInt]) (by decide) XRun.contArgs (XRun.extra 1 1) rfl rfl r1
  obtain ⟨t2, ht2⟩ := hrows _ (List.mem_of_getElem? hth2)
  obtain ⟨q1, q2, q3, k1, k2, k3, k4, k5⟩ := runSimulation_ok h'
  rw [h2] at k1
  cases k1
  have hdata : out.obj.data = XRun.data := by rw [r5]; rfl
  have hvar : ∀ c, out'.results.s2chain = some c → ∀ x ∈ c, PosVar x := by
    intro c' hc' x hx
    rw [hc] at hc'
    cases hc'
    choose v hv hv0 using hpos x hx
    exact ⟨v, hv0, funext hv⟩
  obtain ⟨mu, sigma, hmu, hlen, htr, k0, hk0, g⟩ := C78_continued
    (.options XRun.contArgs (XRun.extra 1 1) hre) h' (XRun.cont_inputs rfl rfl) (fun _ => hrows)
    (by decide) (fun _ => rfl) one_pos (by decide) (fun v => by simp [XRun.user])
    (show (1 : ℤ) < 5 by decide) (fun h => absurd h (by change ¬ (1 : ℤ) < 1; decide)) rfl
    (show out.obj.data.n ≠ [] by rw [hdata]; decide) (t := t2) (by rw [k4]; exact ht2)
    (by rw [k4]; exact hq2.trans hq) Matrix.PosDef.one (ds := [5]) rfl (fun _ _ _ _ => ⟨0, rfl⟩)
    (fun θ ss hs => by
      obtain ⟨v, hv, hs⟩ := hs
      obtain ⟨r, -, e⟩ := XRun.sos_finite hv hs
      exact ⟨fun _ => r, e⟩)
    (fun _ => ⟨1 / 2, by norm_num, by norm_num, rfl⟩) hvar (fun hn => by rw [hc] at hn; cases hn)
  obtain ⟨hlcc, -⟩ := C157_variance XR.lit_one_mul (.options XRun.contArgs (XRun.extra 1 1) hre)
    (by decide) (fun _ => rfl) h' hc
  have hlen' : (out'.final.moveLog.length : ℤ) + 1 = 5 := hlen
  have hk4 : k0 = 4 := by omega
  subst hk4
  obtain ⟨r, hr⟩ : ∃ r, out'.final.moveLog[0]? = some r := ⟨_, List.getElem?_eq_getElem (by omega)⟩
  obtain ⟨ts, hts⟩ : ∃ r, out'.final.trace[0]? = some r := ⟨_, List.getElem?_eq_getElem (by omega)⟩
  obtain ⟨x, q, v, r0, A, W, P, st, e0, -, e1, -, e2, -, e3, -, -, -, -, -, e4⟩ := g 0 r ts hr hts
  obtain ⟨_, _, _, _, _, _, _, hmv⟩ := C72_decisions (.options XRun.contArgs (XRun.extra 1 1) hre)
    (by decide) (fun _ => rfl) h'
  obtain ⟨-, -, -, -, -, -, t, ts', rfl, -⟩ := hmv 0 r ts hr hts
  obtain ⟨⟨-, -, -, -, u, -, -, -, e5⟩, -⟩ := e4 0 t rfl
  have hx : x = fun _ => x ⟨0, by decide⟩ := by
    funext i
    have : nS XRun.flags = 1 := by decide
    exact congrArg x (Fin.ext (by omega))
  have hv : v = fun _ => v 0 := funext fun i => congrArg v (Subsingleton.elim _ _)
  refine ⟨out, out', c, ts', t, x ⟨0, by decide⟩, v 0, r0, q 0, W, P, u, h, h', by omega, ?_, hc, ?_, e2 0, ?_, hts, e5⟩
  · rw [← hx]; exact e0
  · rw [← hv]; exact e1 c hc
  · rw [← hx, e3]; simp

end Verif
