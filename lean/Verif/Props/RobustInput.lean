import Verif.Props.Robust
import Verif.Props.Decisions
import Verif.Lemmas.RejCount

/-! # C155: what the robust adaptation is given -/

set_option linter.unusedSectionVars false

namespace Verif

section general
variable {F σ : Type} [PyFloat F] {N n m : ℕ} {flags : Fin N → Bool}

/-- What the adaptation `a` of a single-try iteration is given: `r` is where the iteration started,
`t` its proposal. -/
structure AlphaSpec (P : Problem F N n m) (G : Rng σ F) (r : MoveRecord F σ n m) (fixed : Vec F N)
    (t : Try F n) (a : AdaptRecord F n) : Prop where
  u : a.u = (G.randn n r.rng).1
  factor : a.before.R = r.R
  outside : t.outside = isOutside t.theta P.lower P.upper
  out : t.outside = true → a.alpha = some (lit 0)
  inside : t.outside = false →
    ∃ ss val, (∀ k, (∀ i, P.parind i ≠ k) → val k = fixed k) ∧
      SosAt P.style1 P.sosFun (writeAt P.parind t.theta val) ss ∧
      a.alpha = some (logPosterior ss r.before.sigma2 (P.prior t.theta)
        - logPosterior r.before.ss r.before.sigma2 r.before.prior)

theorem propose_single_alpha {E : Env F σ N n m} {s : SimState F σ N n m} {p : Proposal F σ N n m}
    {t : Try F n} (ht : p.tries = [t]) (h : propose E s = .ok p) (i : ℕ) (c : CovState F n) :
      AlphaSpec E.problem E.rng
        ⟨s.oldSet, s.cov.R, s.cov.RDR, s.cov.invR, s.world.rng, p.world.rng⟩ s.world.value t
        ⟨i, s.cov, c, p.u, p.newSet.alpha⟩ := by
  unfold propose at h
  rw [bind_ok] at h
  obtain ⟨⟨o, z⟩, h1, h⟩ := h
  dsimp only at h
  split at h
  · obtain ⟨⟨o2, dr, ts⟩, h2, h⟩ := bind_ok.1 h
    cases h
    unfold runDelayedRejection at h2
    obtain ⟨d, hd, h2⟩ := bind_ok.1 h2
    have := drLoop_outside _ _ _ _ _ (by simp) hd
    split at h2
    · rename_i s' b hb
      cases h2
      have h4 := (this _ _ hb).2
      simp only [List.cons.injEq] at ht
      exact absurd ht.2 h4
    · cases h2
  cases h
  dsimp only at ht
  cases ht
  unfold runMetropolisStep at h1
  dsimp only at h1
  split at h1
  · rename_i ho
    cases h1
    exact ⟨rfl, rfl, ho.symm, fun _ => rfl, fun h => by cases h⟩
  · rename_i ho
    rw [bind_ok] at h1
    obtain ⟨e, he, h1⟩ := h1
    cases h1
    obtain ⟨g1, -, -, -⟩ := evaluateSos_ok he
    refine ⟨rfl, rfl, ?_, fun h => (by cases h), fun _ => ⟨e.1, _, fun _ _ => rfl, g1, rfl⟩⟩
    rw [Bool.not_eq_true] at ho
    exact ho.symm

/-- Invariant: the adaptations of the iterations before `i`. -/
structure AlphaInv (E : Env F σ N n m) (s0 : SimState F σ N n m) (i : ℕ) (s : SimState F σ N n m) :
    Prop where
  len : s.moveLog.length + 1 = i
  tlen : s.trace.length + 1 = i
  value : ∀ k, (∀ i, E.problem.parind i ≠ k) → s.world.value k = s0.world.value k
  all : ∀ a ∈ s.adaptLog, 1 ≤ a.at_ ∧ ∃ ts r, s.trace[a.at_ - 1]? = some ts ∧
    s.moveLog[a.at_ - 1]? = some r ∧ ts ≠ [] ∧ ts.length ≤ max E.opts.ntry 1 ∧
    ∀ t, ts = [t] → AlphaSpec E.problem E.rng r s0.world.value t a

theorem AlphaInv.step {E : Env F σ N n m} {s0 s s' : SimState F σ N n m}
    {i : ℕ} {p : Proposal F σ N n m} (hi : 1 ≤ i)
    (h : AlphaInv E s0 i s) (hs : StepSpec E i s s' p) : AlphaInv E s0 (i + 1) s' := by
  have hlen := h.len
  have htlen := h.tlen
  have hp := propose_ok hs.prop
  refine ⟨by rw [hs.moveLog]; simp; omega, by rw [hs.trace]; simp; omega, ?_, ?_⟩
  · intro k hk
    rw [hs.value]
    exact (hp.calls.value k hk).trans (h.value k hk)
  · intro a ha
    rw [hs.adaptLog] at ha
    rw [hs.trace, hs.moveLog]
    rcases List.mem_append.1 ha with ha | ha
    · obtain ⟨h1, ts, r, h2, h3, h4⟩ := h.all a ha
      have l2 := (List.getElem?_eq_some_iff.1 h2).1
      have l3 := (List.getElem?_eq_some_iff.1 h3).1
      exact ⟨h1, ts, r, by rw [List.getElem?_append_left l2, h2],
        by rw [List.getElem?_append_left l3, h3], h4⟩
    · split at ha
      · rw [List.mem_singleton.1 ha]
        refine ⟨hi, p.tries,
          ⟨s.oldSet, s.cov.R, s.cov.RDR, s.cov.invR, s.world.rng, p.world.rng⟩, ?_, ?_, hp.ne, hp.len,
          fun t ht => ?_⟩
        · dsimp only
          rw [List.getElem?_append_right (by omega),
            show i - 1 - s.trace.length = 0 by omega]; rfl
        · dsimp only
          rw [List.getElem?_append_right (by omega),
            show i - 1 - s.moveLog.length = 0 by omega]; rfl
        · have e2 := propose_single_alpha ht hs.prop i s'.cov
          refine ⟨e2.u, e2.factor, e2.outside, e2.out, fun ho => ?_⟩
          obtain ⟨ss, val, b, c⟩ := e2.inside ho
          exact ⟨ss, val, fun k hk => (b k hk).trans (h.value k hk), c⟩
      · cases ha

theorem adapt_input {U : UserFuns F N (nS flags) m} {specs : Fin N → ParamSpec F}
    {opts : SimOpts F} {extra : ExtraOpts F (nS flags)} {ms : ModelSettings F} {data : Data}
    {o : Obj F flags m} (ho : Reachable U (newObj specs opts extra ms data) o)
    (hnan : ∀ k, PyFloat.isnan (specs k).theta0 = false)
    {G : Rng σ F} {L : Lapack F} {fuel : ℕ} {rng : σ} {up : Bool} {out : RunOut F σ flags m}
    (h : runSimulation U G L fuel o rng up = .ok out) :
    ∃ mu sigma, UserPrior flags specs mu sigma ∧
      ∀ a ∈ out.final.adaptLog, 1 ≤ a.at_ ∧ ∃ ts r, out.final.trace[a.at_ - 1]? = some ts ∧
        out.final.moveLog[a.at_ - 1]? = some r ∧ ts ≠ [] ∧ ts.length ≤ max o.opts.ntry.toNat 1 ∧
        ∀ t, ts = [t] → a.u = (G.randn (nS flags) r.rng).1 ∧ a.before.R = r.R ∧
          (¬ InLimits flags specs t.theta → a.alpha = some (lit 0)) ∧
          (InLimits flags specs t.theta → ∃ v ss, BelongsTo flags specs t.theta v ∧ SosValue U v ss ∧
            a.alpha = some (logPosterior ss r.before.sigma2 (U.priorFun t.theta mu sigma)
              - logPosterior r.before.ss r.before.sigma2 r.before.prior)) := by
  have hinv := reachable_objInv rfl ho
  obtain ⟨mu, sigma, hmu, hprior⟩ := C71_prior_kept rfl hnan ho h
  obtain ⟨o1, I, s0, h1, h2, h3, h4, h5⟩ := runSimulation_ok h
  rw [h4] at hprior
  have hst := (setup_start h1).1
  have hsame := hinv.same.trans hst.same
  have hnt : (runOpts I.opts o1.extra).ntry = o.opts.ntry.toNat := by
    change I.opts.ntry.toNat = _
    rw [hst.init.opts, hst.opts]; rfl
  obtain ⟨_, s1, hP, hfin⟩ := executeSimulator_inv
    (E := ⟨I.problem, G, L, runOpts I.opts o1.extra, fuel⟩)
    (P := fun i s => AlphaInv ⟨I.problem, G, L, runOpts I.opts o1.extra, fuel⟩ s0 i s)
    ⟨by simp [loopStart, hst.moveLog], by simp [loopStart, hst.trace], fun _ _ => rfl,
      by simp [loopStart, hst.adaptLog]⟩
    (fun i a b p hi _ hP hp => hP.step hi hp) h2
  refine ⟨mu, sigma, hmu, fun a ha => ?_⟩
  rw [hfin] at ha ⊢
  obtain ⟨g0, ts, r, g1, g2, g4, g5, g3⟩ := hP.all a ha
  dsimp only at g5
  rw [hnt] at g5
  refine ⟨g0, ts, r, g1, g2, g4, g5, fun t ht => ?_⟩
  replace g3 := g3 t ht
  refine ⟨g3.u, g3.factor, fun hno => ?_, fun hin => ?_⟩
  · apply g3.out
    rw [g3.outside]
    by_contra hout
    rw [Bool.not_eq_true, hst.init.lower, hst.init.upper] at hout
    apply hno
    have := inLimits_of hout
    intro i k hk
    have := this i k hk
    rwa [hsame.minimum, hsame.maximum] at this
  · have hout : t.outside = false := by
      rw [g3.outside, isOutside_eq_false, hst.init.lower, hst.init.upper]
      intro i
      have := hin i (parindOf flags i) (List.getElem?_eq_getElem _)
      unfold atParind
      dsimp only
      rw [hsame.minimum, hsame.maximum]
      exact this
    obtain ⟨ss, val, d1, d2, d3⟩ := g3.inside hout
    dsimp only at d1 d2 d3
    rw [hst.init.parind] at d1 d2
    rw [hst.init.style1, hst.init.sosFun] at d2
    refine ⟨_, ss, belongsTo_of (v := writeAt (parindOf flags) t.theta val)
      (fun i => writeAt_sampled (parindOf_injective flags) i) (fun k hk => ?_), d2, ?_⟩
    · rw [writeAt_fixed (not_parindOf hk), d1 k (not_parindOf hk), hst.world, hst.init.value,
        hsame.fixed k hk]
      rfl
    · rw [d3, hprior]

/-- **C155**, what the adaptation is given.  Whatever the history of an object, in a run with a single
try per iteration every adaptation uses, of the iteration `a.at_` in which it takes place: the normal
draw, the factor of the proposal covariance, and as acceptance value zero if the proposal violates a
limit, otherwise the difference of the logarithms of the posterior density at the proposal and at the
row from which the iteration started. -/
theorem C155_input {U : UserFuns F N (nS flags) m} {specs : Fin N → ParamSpec F}
    {opts : SimOpts F} {extra : ExtraOpts F (nS flags)} {ms : ModelSettings F} {data : Data}
    {o : Obj F flags m} (ho : Reachable U (newObj specs opts extra ms data) o)
    (hnan : ∀ k, PyFloat.isnan (specs k).theta0 = false) (hn : o.opts.ntry ≤ 1)
    {G : Rng σ F} {L : Lapack F} {fuel : ℕ} {rng : σ} {up : Bool} {out : RunOut F σ flags m}
    (h : runSimulation U G L fuel o rng up = .ok out) :
    ∃ mu sigma, UserPrior flags specs mu sigma ∧
      ∀ a ∈ out.final.adaptLog, 1 ≤ a.at_ ∧ ∃ t r, out.final.trace[a.at_ - 1]? = some [t] ∧
        out.final.moveLog[a.at_ - 1]? = some r ∧
        a.u = (G.randn (nS flags) r.rng).1 ∧ a.before.R = r.R ∧
        (¬ InLimits flags specs t.theta → a.alpha = some (lit 0)) ∧
        (InLimits flags specs t.theta → ∃ v ss, BelongsTo flags specs t.theta v ∧ SosValue U v ss ∧
          a.alpha = some (logPosterior ss r.before.sigma2 (U.priorFun t.theta mu sigma)
            - logPosterior r.before.ss r.before.sigma2 r.before.prior)) := by
  obtain ⟨mu, sigma, hmu, hall⟩ := adapt_input ho hnan h
  refine ⟨mu, sigma, hmu, fun a ha => ?_⟩
  obtain ⟨g0, ts, r, g1, g2, g4, g5, g3⟩ := hall a ha
  obtain ⟨t, rfl⟩ : ∃ t, ts = [t] := by
    rw [← List.length_eq_one_iff]
    have := List.length_pos_of_ne_nil g4
    omega
  exact ⟨g0, t, r, g1, g2, g3 t rfl⟩

end general

/-! ### Proposals outside the limits -/

open Matrix
variable {σ : Type} {N m : ℕ} {flags : Fin N → Bool}

/-- **C155**, a proposal outside the limits: robust adaptation then keeps the covariance positive
definite and shrinks it along the direction of the proposal. -/
theorem C155_outside {U : UserFuns XR N (nS flags) m} {specs : Fin N → ParamSpec XR}
    {opts : SimOpts XR} {extra : ExtraOpts XR (nS flags)} {ms : ModelSettings XR} {data : Data}
    {o : Obj XR flags m} (ho : Reachable U (newObj specs opts extra ms data) o)
    (hnan : ∀ k, PyFloat.isnan (specs k).theta0 = false) (hn : o.opts.ntry ≤ 1)
    {G : Rng σ XR} {L : Lapack XR} {fuel : ℕ} {rng : σ} {up : Bool} {out : RunOut XR σ flags m}
    (h : runSimulation U G L fuel o rng up = .ok out)
    {r : AdaptRecord XR (nS flags)} {t : Try XR (nS flags)}
    {R : Matrix (Fin (nS flags)) (Fin (nS flags)) ℝ}
    {u : Fin (nS flags) → ℝ} {a eta target ε s : ℝ} (hr : RamStep L o out r R u a eta target ε s)
    (ht : out.final.trace[r.at_ - 1]? = some [t]) (hout : ¬ InLimits flags specs t.theta) :
    ∃ (R' : Matrix (Fin (nS flags)) (Fin (nS flags)) ℝ) (c : ℝ), r.after.R = finMx R' ∧
      (R'ᵀ * R').PosDef ∧ c < 0 ∧
      R'ᵀ * R' = s ^ 2 • (Rᵀ * R + c • vecMulVec (ramDir R u) (ramDir R u)) := by
  obtain ⟨mu, sigma, -, hall⟩ := C155_input ho hnan hn h
  obtain ⟨-, t', mv, e1, -, -, -, e2, -⟩ := hall r hr.mem
  rw [ht] at e1
  cases e1
  have ha := (hr.alpha.symm.trans (e2 hout))
  simp only [Option.some.injEq, XR.lit_eq, XR.fin_inj] at ha
  have ha0 : a = 0 := by rw [ha]; norm_num
  subst ha0
  obtain ⟨_, ht0, _⟩ := hr.target
  obtain ⟨R', c, f1, f2, f3⟩ := C20_growth_refuted hr (by linarith [hr.target.2.2]) ht0
  obtain ⟨R2, c2, k1, -, k2, -, -⟩ := C20_ram_partial hr le_rfl
  have : R' = R2 := by
    rw [f1] at k1
    ext i j
    have := congrFun (congrFun k1 i) j
    simpa [finMx, finMat, XR.fin_inj] using this
  subst this
  exact ⟨R', c, f1, k2, f2, f3⟩

/-! ### Example -/

/-- The hypotheses of `C155_input` and `C155_outside` can be met: initial variance 400, limits -10 and
10, the first proposal is 20. -/
example : ∃ (out : RunOut XR Unit XRun.flags 1) (r : _) (t : _),
    RamStep exactLapack (XRun.obj XRun.ramArgs true 400) out r (diagonal fun _ => Real.sqrt 400)
      (fun _ => 1) 0 (7 / 10) (1 / 4) 1 1 ∧
    out.final.trace[r.at_ - 1]? = some [t] ∧ ¬ InLimits XRun.flags (XRun.obj XRun.ramArgs true 400).specs t.theta := by
  obtain ⟨out, r, h, h1⟩ := XRun.ram_run (v := 400) (by norm_num)
  rw [if_neg (by norm_num)] at h
  obtain ⟨U, G, fuel, rng, up, hrun⟩ := h.run
  have hup : up = false := by
    cases up with
    | false => rfl
    | true =>
      obtain ⟨o1, I, s0, e1, -⟩ := runSimulation_ok hrun
      obtain ⟨_, _, _, _, _, _, _, _, ⟨res, hr, _⟩, _⟩ := setup_continue e1
      cases hr
  subst hup
  have hre : Reachable U (newObj (XRun.specs true) (defineSimulationOptions XRun.ramArgs)
    (XRun.extra 400 1) XRun.settings XRun.data) (XRun.obj XRun.ramArgs true 400) := .start
  have hnan : ∀ k, PyFloat.isnan (XRun.specs true k).theta0 = false := fun _ => rfl
  obtain ⟨_, _, -, hall⟩ := C155_input hre hnan (by decide) hrun
  obtain ⟨-, t, mv, e1, e2, e3, e4, -⟩ := hall r h.mem
  obtain ⟨k0, _, _, -, l1, l2, -, hdec⟩ := C72_decisions hre (by decide) hnan hrun
  obtain ⟨d1, -, -, -, -, -, t', ts, d2, d3, -⟩ := hdec _ _ _ e2 e1
  cases d2
  refine ⟨out, r, t, h, e1, fun hin => ?_⟩
  have hlt := (hin ⟨0, by decide⟩ 0 (by decide)).2
  obtain ⟨c1, ⟨row0, c2, c3⟩, -⟩ := C02_chain_records_moves rfl hrun
  have hns : (XRun.obj XRun.ramArgs true 400).opts.nsimu = 2 := rfl
  rw [h1, show k0 + (1 - 1) = 0 by omega, c2] at d1
  cases d1
  have hz : mv.before.theta = finVec fun _ => 0 := by
    apply List.ofFn_injective
    rw [c3]
    rfl
  have hu : ∀ k, (G.randn (nS XRun.flags) mv.rng).1 k = .fin 1 := fun k => by
    rw [← e3, h.draw]; rfl
  have hth : t.theta ⟨0, by decide⟩ = .fin 20 := by
    rw [d3, hz]
    have e := congrFun (XR.vecMat_fin (fun _ => 1)
      (diagonal fun _ : Fin (nS XRun.flags) => Real.sqrt 400)) ⟨0, by decide⟩
    have h20 : Real.sqrt 400 = 20 := by
      rw [show (400 : ℝ) = 20 ^ 2 by norm_num]
      exact Real.sqrt_sq (by norm_num)
    rw [h20] at e
    simp only [hu, ← e4, h.factor, finMx, finMat, finVec, h20]
    change XR.fin 0 + vecMat (fun i => XR.fin 1)
      (fun i k => XR.fin ((diagonal fun _ => (20 : ℝ)) i k)) ⟨0, by decide⟩ = _
    rw [e, XR.fin_add]
    simp [diagonal_apply]
  rw [hth] at hlt
  change PyFloat.lt (XR.fin 10) (XR.fin 20) = false at hlt
  simp at hlt
  norm_num at hlt

end Verif
