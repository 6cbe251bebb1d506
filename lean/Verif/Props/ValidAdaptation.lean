import Verif.Props.Valid
import Verif.Props.Covariance
import Verif.Props.Continue
import Verif.Props.Diminishing

/-! # C149: what adaptation does in every valid problem -/

set_option linter.unusedSectionVars false

namespace Verif
open Matrix
variable {σ : Type} {N m : ℕ} {flags : Fin N → Bool}

/-- what a returned run of a valid problem brings with it -/
theorem valid_adaptiveRun {U : UserFuns XR N (nS flags) m} {G : Rng σ XR} {L : Lapack XR} {fuel : ℕ}
    {o : Obj XR flags m} (hx : ExactInputs G L o) (hv : ValidProblem U o) {rng : σ}
    {out : RunOut XR σ flags m} (h : runSimulation U G L fuel o rng false = .ok out)
    (hq : o.opts.initqcovn = none) {ε s : ℝ} (hε : o.extra.qcovAdjust = .fin ε)
    (hs : IsScale o.opts.adascale (nS flags) s) :
    ∃ rows Q, AdaptiveRun L o out rows Q ε s ∧ Q.PosDef ∧ (rows.length : ℤ) = o.opts.nsimu ∧
      ∀ r ∈ out.final.adaptLog, ∃ R, r.after.R = finMx R ∧ IsUnit R := by
  obtain ⟨I, s0, t, Q, h1, ht, hQ, hpd⟩ := valid_setup hx hv rng
  have hI : out.init = I := by
    obtain ⟨p1, p2, p3, r1, r2, r3, r4, r5⟩ := runSimulation_ok h
    rw [h1] at r1
    cases r1
    exact r4
  have hlen := (C02_chain_records_moves hv.noRestart h).1
  rcases C65_exact_run_returns (fuel := fuel) hx h1 hv.nsimu hv.sampled hv.sos hv.delayed hv.data ht hQ hpd with
    ⟨out', e1, e2, e3⟩ | ⟨e1, _⟩
  swap
  · rw [h] at e1; cases e1
  rw [h] at e1
  cases e1
  obtain ⟨rows, hrw⟩ : ∃ rows : List (Fin (nS flags) → ℝ), out.results.chain = rows.map finVec := by
    clear hlen
    generalize out.results.chain = l at e2
    induction l with
    | nil => exact ⟨[], rfl⟩
    | cons x l ih =>
      obtain ⟨y, hy⟩ := e2 x (by simp)
      obtain ⟨ys, hys⟩ := ih fun r hr => e2 r (by simp [hr])
      exact ⟨y :: ys, by rw [hy, hys]; rfl⟩
  refine ⟨rows, Q, ⟨hx.lapack, ⟨U, G, fuel, rng, h⟩, hv.sampled, hq, hx.noRam, hrw, by rw [hI, hQ], ?_, hε, hs⟩,
    hpd, ?_, e3⟩
  · have := hpd.isHermitian
    rwa [Matrix.IsHermitian, conjTranspose_eq_transpose_of_trivial] at this
  · rw [hrw, List.length_map] at hlen
    exact hlen

/-- **C149.** Adaptation in every valid problem (the conditions of `C76` on what the user gives) in
which all sampled parameters are adapted, the adjustment `ε` is positive and there is no prior weight:
if the run returns, its chain is a list of `nsimu` finite rows, the proposal is adapted exactly in the
iterations divisible by `adaptint`, and the adaptation in an iteration `i` past the burn-in takes the
sample mean and the sample covariance of the `i` rows so far and leaves an invertible factor `R`
with `RᵀR` equal to `s²` times that covariance, `ε` being added to the diagonal exactly if the covariance is
not positive definite. -/
theorem C149_valid_adaptation {U : UserFuns XR N (nS flags) m} {G : Rng σ XR} {L : Lapack XR} {fuel : ℕ}
    {o : Obj XR flags m} (hx : ExactInputs G L o) (hv : ValidProblem U o) {rng : σ}
    {out : RunOut XR σ flags m} (h : runSimulation U G L fuel o rng false = .ok out)
    (hq : o.opts.initqcovn = none) {ε s : ℝ} (hε : o.extra.qcovAdjust = .fin ε) (hpos : 0 < ε)
    (hs : IsScale o.opts.adascale (nS flags) s) (hall : ∀ k, flags k = true → (o.specs k).adapt = true)
    (hint : 0 < o.opts.adaptint) :
    ∃ rows : List (Fin (nS flags) → ℝ), out.results.chain = rows.map finVec ∧ (rows.length : ℤ) = o.opts.nsimu ∧
      (out.final.adaptLog.map (·.at_)).Pairwise (· < ·) ∧
      (∀ i : ℕ, (∃ r ∈ out.final.adaptLog, r.at_ = i) ↔ 1 ≤ i ∧ i < rows.length ∧ o.opts.adaptint ∣ i) ∧
      ∀ r ∈ out.final.adaptLog, o.opts.burnintime ≤ r.at_ →
        r.after.meanchain = some (finVec (sampleMean (rows.take r.at_))) ∧
        r.after.covchain = some (finMat (sampleCov (rows.take r.at_))) ∧
        ∃ R : Matrix (Fin (nS flags)) (Fin (nS flags)) ℝ, r.after.R = finMx R ∧ IsUnit R ∧
          ((sampleCovM (rows.take r.at_)).PosDef → Rᵀ * R = s ^ 2 • sampleCovM (rows.take r.at_)) ∧
          (¬ (sampleCovM (rows.take r.at_)).PosDef →
            Rᵀ * R = s ^ 2 • (sampleCovM (rows.take r.at_) + ε • 1)) := by
  obtain ⟨rows, Q, hr, -, hlen, -⟩ := valid_adaptiveRun hx hv h hq hε hs
  obtain ⟨h1, h2⟩ := (C14_adaptation_schedule_partial h).1 hint
  have hat := adaptLog_at h
  refine ⟨rows, hr.rows, hlen, by rw [hat]; exact h1, fun i => ?_, fun r hm hb => ?_⟩
  · have : (∃ r ∈ out.final.adaptLog, r.at_ = i) ↔ i ∈ out.final.adaptedAt := by
      rw [← hat, List.mem_map]
    rw [this, h2 i, ← hlen]
    norm_cast
  · obtain ⟨e1, e2, -⟩ := C12_adapted_moments hv.sampled h hq hr.rows r hm hb
    exact ⟨e1, e2, C16_adaptation_succeeds hr hall hpos hm hb⟩

/-- **C149**, the documented use: parameters with finite initial values within their limits, all
adapted, data, a sum-of-squares function, and no options but the number of simulations and the method
`am` or `dram`.  The run returns; the proposal is adapted in the iterations 100, 200, ...; and after each of
these the proposal covariance is `2.4²/n` times the sample covariance of the chain so far, with
`10⁻⁸` on the diagonal if that is not positive definite. -/
theorem C149_default_adaptation {U : UserFuns XR N (nS flags) m} {G : Rng σ XR} {L : Lapack XR} {fuel : ℕ}
    (hL : ExactLapack L) (hG : ∀ s, ∃ z, (G.randn (nS flags) s).1 = finVec z)
    (specs : Fin N → ParamSpec XR) (hn : 0 < nS flags)
    (h0 : ∀ k, ∃ t : ℝ, (specs k).theta0 = .fin t)
    (hlim : ∀ k, flags k = true → PyFloat.le (specs k).minimum (specs k).theta0 = true ∧
      PyFloat.le (specs k).theta0 (specs k).maximum = true)
    (hall : ∀ k, flags k = true → (specs k).adapt = true)
    (d : Data) (hd : d.n ≠ []) (hm : d.n.length = 1 ∨ m ≤ d.n.length)
    (hloc : LocalFit flags specs d.nbatch) (hsos : Computes U.style1 U.sosFun)
    (nsimu : ℕ) (hns : 2 ≤ nsimu) (meth : Method) (hmeth : meth = .am ∨ meth = .dram) (rng : σ) :
    ∃ (out : RunOut XR σ flags m) (rows : List (Fin (nS flags) → ℝ)),
      runSimulation U G L fuel (newObj specs
        (defineSimulationOptions { nsimu := nsimu, method := meth }) (defaultExtra (nS flags))
        (defineModelSettings none none none none none) d) rng false = .ok out ∧
      out.results.chain = rows.map finVec ∧ rows.length = nsimu ∧
      (out.final.adaptLog.map (·.at_)).Pairwise (· < ·) ∧
      (∀ i : ℕ, (∃ r ∈ out.final.adaptLog, r.at_ = i) ↔ 1 ≤ i ∧ i < nsimu ∧ 100 ∣ i) ∧
      ∀ r ∈ out.final.adaptLog,
        ∃ R : Matrix (Fin (nS flags)) (Fin (nS flags)) ℝ, r.after.R = finMx R ∧ IsUnit R ∧
          ((sampleCovM (rows.take r.at_)).PosDef →
            Rᵀ * R = ((24 / 10) ^ 2 / nS flags : ℝ) • sampleCovM (rows.take r.at_)) ∧
          (¬ (sampleCovM (rows.take r.at_)).PosDef →
            Rᵀ * R = ((24 / 10) ^ 2 / nS flags : ℝ) • (sampleCovM (rows.take r.at_) + (1 / 10 ^ 8 : ℝ) • 1)) := by
  obtain ⟨h1, h2⟩ := default_valid (U := U) hL hG specs hn h0 hlim d hd hm hloc hsos nsimu hns meth
    (by rcases hmeth with rfl | rfl <;> decide)
  obtain ⟨out, hrun, -⟩ := C76_fixed_variance (fuel := fuel) h1 h2 rng rfl rfl
  have had : (defineSimulationOptions (F := XR) { nsimu := nsimu, method := meth }).adaptint = 100 := by
    rcases hmeth with rfl | rfl <;> rfl
  have hsc : (defineSimulationOptions (F := XR) { nsimu := nsimu, method := meth }).adascale = none := by
    rcases hmeth with rfl | rfl <;> rfl
  obtain ⟨rows, e1, e2, e3, e4, e5⟩ := C149_valid_adaptation h1 h2 hrun rfl (ε := 1 / 10 ^ 8)
    (s := 24 / 10 / Real.sqrt (nS flags)) rfl (by norm_num) (.inl ⟨hsc, rfl⟩) hall
    (show (0 : ℤ) < (defineSimulationOptions (F := XR) { nsimu := nsimu, method := meth }).adaptint by
      rw [had]; decide)
  have e2 : (rows.length : ℤ) = (nsimu : ℤ) := e2
  have e2 : rows.length = nsimu := by exact_mod_cast e2
  refine ⟨out, rows, hrun, e1, e2, e3, fun i => ?_, fun r hr => ?_⟩
  · rw [e4 i, e2]
    have : (newObj (m := m) specs (defineSimulationOptions { nsimu := nsimu, method := meth })
      (defaultExtra (nS flags)) (defineModelSettings none none none none none) d).opts.adaptint = 100 := had
    rw [this]
    norm_cast
  · obtain ⟨-, -, R, f1, f2, f3, f4⟩ := e5 r hr (show (0 : ℤ) ≤ r.at_ by positivity)
    have hsq : (24 / 10 / Real.sqrt (nS flags)) ^ 2 = ((24 / 10) ^ 2 / nS flags : ℝ) := by
      rw [div_pow, Real.sq_sqrt (Nat.cast_nonneg _)]
    rw [hsq] at f3 f4
    exact ⟨R, f1, f2, f3, f4⟩

/-- **C149**, adaptation diminishes in every valid problem with finite limits: the conditions of
`C132` on the run are met. -/
theorem C149_moments_settle {U : UserFuns XR N (nS flags) m} {specs : Fin N → ParamSpec XR}
    {opts : SimOpts XR} {extra : ExtraOpts XR (nS flags)} {ms : ModelSettings XR} {data : Data}
    {G : Rng σ XR} {L : Lapack XR} {fuel : ℕ}
    (hx : ExactInputs G L (newObj specs opts extra ms data : Obj XR flags m))
    (hv : ValidProblem U (newObj specs opts extra ms data)) {rng : σ} {out : RunOut XR σ flags m}
    (h : runSimulation U G L fuel (newObj specs opts extra ms data) rng false = .ok out)
    (hq : opts.initqcovn = none) {a b : Fin (nS flags) → ℝ}
    (hlim : ∀ i k, ((List.finRange N).filter flags)[i.val]? = some k →
      (specs k).minimum = .fin (a i) ∧ (specs k).maximum = .fin (b i))
    {r r' : AdaptRecord XR (nS flags)} (hr : r ∈ out.final.adaptLog) (hr' : r' ∈ out.final.adaptLog)
    (hb : opts.burnintime ≤ r.at_) (hle : r.at_ ≤ r'.at_) :
    ∃ (M M' : Fin (nS flags) → ℝ) (C C' : Fin (nS flags) → Fin (nS flags) → ℝ),
      r.after.meanchain = some (finVec M) ∧ r'.after.meanchain = some (finVec M') ∧
      r.after.covchain = some (finMat C) ∧ r'.after.covchain = some (finMat C') ∧
      (∀ i, |M' i - M i| ≤ (b i - a i) * ((r'.at_ : ℝ) - r.at_) / r'.at_) ∧
      ∀ i j, |C' i j - C i j| ≤ 2 * ((b i - a i) * (b j - a j)) * ((r'.at_ : ℝ) - r.at_) / ((r'.at_ : ℝ) - 1) := by
  obtain ⟨ε, hε⟩ := hx.adjust
  obtain ⟨s, hs⟩ := hx.scale
  obtain ⟨rows, Q, hra, -⟩ := valid_adaptiveRun hx hv h hq hε hs
  refine C132_moments_settle .start hv.sampled h hq (fun row hrow => ?_) hlim hr hr' hb hle
  rw [hra.rows] at hrow
  obtain ⟨x, _, rfl⟩ := List.mem_map.1 hrow
  exact ⟨x, rfl⟩

namespace XRun

theorem flat_valid : ExactInputs rng exactLapack (obj twoAdaptations) ∧ ValidProblem flatUser (obj twoAdaptations) := by
  refine ⟨⟨exactLapack_ok, fun _ => ⟨fun _ => 1, rfl⟩, ⟨1, rfl⟩, ⟨10, rfl, by norm_num⟩, ⟨[5], rfl, by simp⟩, rfl,
    .inl rfl, ⟨_, .inl ⟨rfl, rfl⟩⟩, nofun⟩,
    ⟨show (1 : ℤ) < 5 by decide, by decide, fun _ => ⟨0, rfl⟩, fun _ _ => ?_, .inl rfl,
    fun v => by simp [flatUser], show XRun.data.n ≠ [] by decide,
    ⟨fun v hv => ?_, nofun, nofun, .inr (.inl rfl), .inl (by decide)⟩, rfl, rfl, ?_, ?_, nofun,
    fun h => absurd h (by change ¬ (1 : ℤ) < 1; decide), rfl⟩⟩
  · simp [XRun.obj, newObj, XRun.specs]
  · cases hv; exact .inl rfl
  · exact .inl ⟨fun _ => 1, rfl, fun _ => one_pos⟩
  · change [XR.fin 5] ≠ []
    simp

end XRun

/-- the hypotheses of `C149_valid_adaptation` and `C149_moments_settle` can be met: five rows, adaptations
in the iterations 2 and 4, limits -10 and 10 -/
example : ∃ out : RunOut XR Unit XRun.flags 1,
    ExactInputs XRun.rng exactLapack (XRun.obj XRun.twoAdaptations) ∧
    ValidProblem XRun.flatUser (XRun.obj XRun.twoAdaptations) ∧
    runSimulation XRun.flatUser XRun.rng exactLapack 0 (XRun.obj XRun.twoAdaptations) () false = .ok out ∧
    (XRun.obj XRun.twoAdaptations).opts.initqcovn = none ∧
    (XRun.obj XRun.twoAdaptations).extra.qcovAdjust = .fin 1 ∧
    IsScale (XRun.obj XRun.twoAdaptations).opts.adascale (nS XRun.flags) (24 / 10) ∧
    (∀ k, XRun.flags k = true → ((XRun.obj XRun.twoAdaptations).specs k).adapt = true) ∧
    0 < (XRun.obj XRun.twoAdaptations).opts.adaptint ∧
    ∃ r r', r ∈ out.final.adaptLog ∧ r' ∈ out.final.adaptLog ∧ r.at_ = 2 ∧ r'.at_ = 4 := by
  obtain ⟨out, rows, hrun, hr, -⟩ := XRun.flat_run
  obtain ⟨h1, h2⟩ := XRun.flat_valid
  have hint : (0 : ℤ) < (XRun.obj XRun.twoAdaptations).opts.adaptint := by change (0 : ℤ) < 2; decide
  have hsch := ((C14_adaptation_schedule_partial hrun).1 hint).2
  have hmem : ∀ j, j ∈ out.final.adaptedAt → ∃ r ∈ out.final.adaptLog, r.at_ = j := by
    intro j hj
    rw [← adaptLog_at hrun] at hj
    exact List.mem_map.1 hj
  obtain ⟨r, q1, q2⟩ := hmem 2 ((hsch 2).2 ⟨by decide, by change (2 : ℤ) < 5; decide, by change (2 : ℤ) ∣ 2; decide⟩)
  obtain ⟨r', q3, q4⟩ := hmem 4 ((hsch 4).2 ⟨by decide, by change (4 : ℤ) < 5; decide, by change (2 : ℤ) ∣ 4; decide⟩)
  exact ⟨out, h1, h2, hrun, rfl, rfl, hr.scale, fun _ _ => rfl, hint, r, r', q1, q3, q2, q4⟩

/-- the hypotheses of `C149_default_adaptation` can be met: infinite limits, one data set -/
example : ∃ specs : Fin 1 → ParamSpec XR, ExactLapack exactLapack ∧
    (∀ s, ∃ z, (XRun.rng.randn (nS XRun.flags) s).1 = finVec z) ∧ 0 < nS XRun.flags ∧
    (∀ k, ∃ t : ℝ, (specs k).theta0 = .fin t) ∧
    (∀ k, XRun.flags k = true → PyFloat.le (specs k).minimum (specs k).theta0 = true ∧
      PyFloat.le (specs k).theta0 (specs k).maximum = true) ∧
    (∀ k, XRun.flags k = true → (specs k).adapt = true) ∧ XRun.data.n ≠ [] ∧ XRun.data.n.length = 1 ∧
    LocalFit XRun.flags specs XRun.data.nbatch ∧ Computes XRun.user.style1 XRun.user.sosFun :=
  ⟨fun _ => ⟨"a", .fin 3, .ninf, .pinf, .fin 0, .pinf, true, 0, true⟩, exactLapack_ok,
    fun _ => ⟨fun _ => 1, rfl⟩, by decide, fun _ => ⟨3, rfl⟩, fun _ _ => ⟨rfl, rfl⟩, fun _ _ => rfl, by decide,
    by decide, .inl (by decide), fun v => by simp [XRun.user]⟩

end Verif
