import Verif.Lemmas.MoveRun
import Verif.Lemmas.Sigma
import Verif.Props.PriorKept
import Verif.Props.Run
import Verif.Props.Progress
import Verif.Spec.XToy
import Verif.Props.Metropolis

/-! # C72: every acceptance decision of a run -/

set_option linter.unusedSectionVars false

namespace Verif

section general
variable {F σ : Type} [PyFloat F] {N m : ℕ} {flags : Fin N → Bool}

/-- **C72.** Whatever the history of an object, in iteration `j` of a run the samplers work from row
`k0 + j` of the returned chain (`k0` rows precede the run's start), with the sums of squares in the
same row of the sum-of-squares chain, the value there of the user's prior with the user's centre and
width, and the error variance then in force: the row of the error-variance chain if it is sampled,
otherwise the initial one.  The factor of the proposal covariance is the one the last adaptation
before the iteration gave.  The first proposal is the row plus the normal draw times the factor; it
is rejected if it violates a limit; otherwise it is accepted exactly if the logarithm of the uniform
draw is below the difference of the logarithms of the posterior density at the proposal and at the
row. -/
theorem C72_decisions {U : UserFuns F N (nS flags) m} {specs : Fin N → ParamSpec F}
    {opts : SimOpts F} {extra : ExtraOpts F (nS flags)} {ms : ModelSettings F} {data : Data}
    {o : Obj F flags m} (ho : Reachable U (newObj specs opts extra ms data) o)
    (hnames : (((List.finRange N).filter flags).map fun k => (specs k).name).Nodup)
    (hnan : ∀ k, PyFloat.isnan (specs k).theta0 = false)
    {G : Rng σ F} {L : Lapack F} {fuel : ℕ} {rng : σ} {up : Bool} {out : RunOut F σ flags m}
    (h : runSimulation U G L fuel o rng up = .ok out) :
    ∃ k0 mu sigma, UserPrior flags specs mu sigma ∧
      k0 + out.final.moveLog.length + 1 = out.results.chain.length ∧
      (out.final.moveLog.length : ℤ) + 1 = o.opts.nsimu ∧
      out.final.trace.length = out.final.moveLog.length ∧
      ∀ j r ts, out.final.moveLog[j]? = some r → out.final.trace[j]? = some ts →
        out.results.chain[k0 + j]? = some r.before.theta ∧
        out.results.sschain[k0 + j]? = some r.before.ss ∧
        r.before.prior = U.priorFun r.before.theta mu sigma ∧
        (∀ c, out.results.s2chain = some c → 0 < j ∨ up = false →
          c[k0 + j]? = some r.before.sigma2) ∧
        (out.results.s2chain = none ∨ j = 0 → r.before.sigma2 = out.init.errModel.sigma2) ∧
        r.R = ((out.final.adaptLog.filter fun a => decide (a.at_ ≤ j)).getLast?.map
          fun a => a.after.R).getD out.init.cov.R ∧
        ∃ t ts', ts = t :: ts' ∧
          (∀ i, t.theta i = r.before.theta i + vsum fun k => (G.randn (nS flags) r.rng).1 k * r.R k i) ∧
          (¬ InLimits flags specs t.theta → t.accepted = false) ∧
          (InLimits flags specs t.theta → ∃ v ss, BelongsTo flags specs t.theta v ∧
            SosValue U v ss ∧
            t.accepted = PyFloat.lt (PyFloat.log (G.rand (G.randn (nS flags) r.rng).2).1)
              (logPosterior ss r.before.sigma2 (U.priorFun t.theta mu sigma)
                - logPosterior r.before.ss r.before.sigma2 r.before.prior)) := by
  have hinv := reachable_objInv rfl ho
  have hres := reachable_resInv rfl hnames ho
  obtain ⟨mu, sigma, hmu, hprior⟩ := C71_prior_kept rfl hnan ho h
  obtain ⟨o1, I, s0, h1, h2, h3, h4, h5⟩ := runSimulation_ok h
  rw [h4] at hprior ⊢
  have hst := (setup_start h1).1
  have hsame := hinv.same.trans hst.same
  obtain ⟨_, _, _, _, _, hc, hss, hs2, _⟩ := generateResults_ok h3
  -- the start
  obtain ⟨hcur, hcur', hlen, hnos, hsig⟩ : s0.chain[s0.chainIndex]? = some s0.oldSet.theta ∧
      s0.sschain[s0.chainIndex]? = some s0.oldSet.ss ∧
      s0.chain.length = s0.chainIndex + I.opts.nsimu.toNat ∧
      (I.opts.updatesigma = false → s0.s2chain = none) ∧
      (I.opts.updatesigma = true → up = false → ∃ c, s0.s2chain = some c ∧
        c[s0.chainIndex]? = some s0.oldSet.sigma2) := by
    cases up with
    | true =>
      obtain ⟨_, hpos, hci, hch, hsc, e, _, _, ⟨res, hr, _⟩, _⟩ := setup_continue h1
      obtain ⟨c1, c2⟩ := continue_start hinv hres hnames h1
      refine ⟨c1, c2, ?_, fun hu => by rw [e, hu]; rfl, fun _ h => by cases h⟩
      rw [hch, hci, List.length_append, hinv.len (by rw [hr]; rfl)]
      simp [zeroRows]; omega
    | false =>
      obtain ⟨_, hpos, hci, hch, hsc, e, _⟩ := setup_fresh h1
      have hp : 0 < I.opts.nsimu.toNat := by omega
      refine ⟨?_, ?_, by rw [hch, hci]; simp [zeroRows], fun hu => by rw [e, hu]; rfl, fun hu _ => ?_⟩
      · rw [hch, hci, hst.oldSet, List.getElem?_set_self (by simpa [zeroRows] using hp)]
      · rw [hsc, hci, hst.oldSet, List.getElem?_set_self (by simpa [zeroRows] using hp)]
      · rw [e, if_pos hu]
        refine ⟨_, rfl, ?_⟩
        rw [hci, hst.oldSet, hst.init.sigma2, List.getElem?_set_self (by simpa [zeroRows] using hp)]
  obtain ⟨hn, s1, ⟨hP, hcl⟩, hfin⟩ := executeSimulator_inv
    (E := ⟨I.problem, G, L, runOpts I.opts o1.extra, fuel⟩)
    (P := fun i s => MoveInv ⟨I.problem, G, L, runOpts I.opts o1.extra, fuel⟩ s0 i s ∧
      s.chain.length = s0.chain.length)
    ⟨⟨rfl, by simp [loopStart, hst.moveLog], by simp [loopStart, hst.trace], hcur, hcur', by
        change s0.oldSet.prior = I.problem.prior s0.oldSet.theta
        rw [hst.oldSet]; exact hst.init.prior, fun _ _ => rfl, fun _ => rfl,
        fun _ hor => hor.elim (by omega) id, fun _ => rfl,
        by simp [loopStart, hst.adaptLog], by simp [loopStart, hst.adaptLog, factorAfter],
        by simp [loopStart, hst.moveLog]⟩, rfl⟩
    (fun i a b p hi _ hP hp => ⟨hP.1.step hi hp, by rw [hp.chain]; simpa using hP.2⟩) h2
  have hN : (runOpts I.opts o1.extra).nsimu = I.opts.nsimu.toNat := rfl
  have hlen1 := hP.len
  have htl := hP.tlen
  dsimp only at hlen1 htl hn
  rw [hN] at hlen1 htl hn
  have e0 : out.results.chain = s1.chain := by rw [hc, hfin]
  have e1 : out.results.sschain = s1.sschain := by rw [hss, hfin]
  have e2 : out.results.s2chain = s1.s2chain := by rw [hs2, hfin]
  have e3 : out.final.moveLog = s1.moveLog := by rw [hfin]
  have e4 : out.final.trace = s1.trace := by rw [hfin]
  have e5 : out.final.adaptLog = s1.adaptLog := by rw [hfin]
  have hns : I.opts.nsimu = o.opts.nsimu := by rw [hst.init.opts, hst.opts]; rfl
  have hsigma : I.opts.updatesigma = false ↔ out.results.s2chain = none := by
    constructor
    · intro hu
      rw [hs2, (executeSimulator_no_sigma (E := ⟨I.problem, G, L, runOpts I.opts o1.extra, fuel⟩)
        hu h2).2, hnos hu]
    · intro hnone
      by_contra hu
      have := executeSimulator_sigma (E := ⟨I.problem, G, L, runOpts I.opts o1.extra, fuel⟩)
        (show I.opts.updatesigma = true by simpa using hu) h2
      rw [← hs2, hnone] at this
      cases this
  refine ⟨s0.chainIndex, mu, sigma, hmu, ?_, ?_, ?_, ?_⟩
  · rw [e3, e0, hcl, hlen]; omega
  · rw [e3, ← hns]; omega
  · rw [e3, e4]; omega
  · intro j r ts hr hts
    rw [e3] at hr
    rw [e4] at hts
    obtain ⟨g1, g2, g3, g4, g5, g6, g7, t, ts', g8, g9⟩ := hP.moves j r ts hr hts
    dsimp only at g3 g5 g6 g9
    refine ⟨by rw [e0]; exact g1, by rw [e1]; exact g2, by rw [g3, hprior], ?_, ?_, ?_, t, ts', g8,
      g9.theta, ?_, ?_⟩
    · intro c hcs hor
      have hu : I.opts.updatesigma = true := by
        rw [← Bool.not_eq_false, hsigma, hcs]; simp
      obtain ⟨c', c1, c2⟩ := g5 hu (hor.imp id (hsig hu))
      rw [← e2, hcs] at c1
      cases c1
      exact c2
    · rintro (hnone | hj)
      · rw [g6 (hsigma.2 hnone), hst.oldSet, hst.init.sigma2]
      · rw [g4 hj, hst.oldSet, hst.init.sigma2]
    · rw [g7, e5, hst.cov]; rfl
    · intro hno
      apply g9.out
      rw [g9.outside]
      by_contra hout
      rw [Bool.not_eq_true, hst.init.lower, hst.init.upper] at hout
      apply hno
      have := inLimits_of hout
      intro i k hk
      have := this i k hk
      rwa [hsame.minimum, hsame.maximum] at this
    · intro hin
      have hout : t.outside = false := by
        rw [g9.outside, isOutside_eq_false, hst.init.lower, hst.init.upper]
        intro i
        have := hin i (parindOf flags i) (List.getElem?_eq_getElem _)
        unfold atParind
        dsimp only
        rw [hsame.minimum, hsame.maximum]
        exact this
      obtain ⟨ss, val, d1, d2, d3⟩ := g9.inside hout
      rw [hst.init.parind] at d1 d2
      rw [hst.init.style1, hst.init.sosFun] at d2
      refine ⟨_, ss, belongsTo_of (v := writeAt (parindOf flags) t.theta val)
        (fun i => writeAt_sampled (parindOf_injective flags) i) (fun k hk => ?_), d2, ?_⟩
      · rw [writeAt_fixed (not_parindOf hk), d1 k (not_parindOf hk), hst.world, hst.init.value,
          hsame.fixed k hk]
        rfl
      · rw [d3, hprior]
        rfl

end general

/-! ### Exact arithmetic -/

open XR

variable {σ : Type} {N m : ℕ} {flags : Fin N → Bool}

theorem logPosterior_fin {q v : Fin m → ℝ} {p : ℝ} (hv : ∀ i, 0 < v i) :
    logPosterior (fun i => XR.fin (q i)) (fun i => XR.fin (v i)) (XR.fin p) =
      XR.fin (-(1 / 2) * (∑ i, q i / v i + p)) := by
  unfold logPosterior
  simp only [fin_div (hv _).ne', vsum_fin, lit_eq, fin_mul, fin_add, fin_inj]
  push_cast; ring

/-- **C72**, in exact arithmetic.  Let `q0`, `p0` be the (finite) sums of squares and prior value of the
row from which iteration `j` starts, `q1`, `p1` those the user's functions give at the iteration's
first proposal, and `w` the (positive) error variances in force.  The proposal is accepted exactly if
it is within the limits and the uniform draw is below the ratio of the posterior densities
`exp(-(∑ q/w + p)/2)` at the proposal and at the row. -/
theorem C72_density_ratio {U : UserFuns XR N (nS flags) m} {specs : Fin N → ParamSpec XR}
    {opts : SimOpts XR} {extra : ExtraOpts XR (nS flags)} {ms : ModelSettings XR} {data : Data}
    {o : Obj XR flags m} (ho : Reachable U (newObj specs opts extra ms data) o)
    (hnames : (((List.finRange N).filter flags).map fun k => (specs k).name).Nodup)
    (hnan : ∀ k, PyFloat.isnan (specs k).theta0 = false)
    {G : Rng σ XR} {L : Lapack XR} {fuel : ℕ} {rng : σ} {up : Bool} {out : RunOut XR σ flags m}
    (h : runSimulation U G L fuel o rng up = .ok out) {j : ℕ} {r : MoveRecord XR σ (nS flags) m}
    {t : Try XR (nS flags)} {ts : List (Try XR (nS flags))}
    (hr : out.final.moveLog[j]? = some r) (ht : out.final.trace[j]? = some (t :: ts))
    {q0 q1 w : Fin m → ℝ} {p0 p1 u : ℝ}
    (hw : ∀ i, 0 < w i) (hsig : r.before.sigma2 = fun i => XR.fin (w i))
    (hq0 : r.before.ss = fun i => XR.fin (q0 i)) (hp0 : r.before.prior = XR.fin p0)
    (hq1 : ∀ v ss, BelongsTo flags specs t.theta v → SosValue U v ss → ss = fun i => XR.fin (q1 i))
    (hp1 : ∀ mu sigma, UserPrior flags specs mu sigma → U.priorFun t.theta mu sigma = XR.fin p1)
    (hu : 0 ≤ u) (hdraw : (G.rand (G.randn (nS flags) r.rng).2).1 = XR.fin u) :
    t.accepted = true ↔ InLimits flags specs t.theta ∧
      u < Real.exp (-(1 / 2) * (∑ i, q1 i / w i + p1)) / Real.exp (-(1 / 2) * (∑ i, q0 i / w i + p0)) := by
  obtain ⟨k0, mu, sigma, hmu, -, -, -, hall⟩ := C72_decisions ho hnames hnan h
  obtain ⟨-, -, -, -, -, -, t', ts', g4, -, g5, g6⟩ := hall j r _ hr ht
  cases g4
  by_cases hin : InLimits flags specs t.theta
  · obtain ⟨v1, ss1, hv1, hs1, hacc⟩ := g6 hin
    rw [hacc, hdraw, hp1 mu sigma hmu, hp0, hq1 _ _ hv1 hs1, hq0, hsig,
      logPosterior_fin hw, logPosterior_fin hw]
    have := logOf_lt_sub (e0 := -(1 / 2) * (∑ i, q0 i / w i + p0)) hu
      (some (-(1 / 2) * (∑ i, q1 i / w i + p1)))
    simp only [logOf] at this
    rw [this]
    simp [hin]
  · rw [g5 hin]
    simp [hin]

/-! ### The hypotheses can be met -/

/-- C72 in a run of 5 rows that is continued for 4 rows: the continued run works from rows 4 to 6. -/
example : ∃ a b, Toy.twice .dram 5 4 = .ok (a, b) ∧ b.final.moveLog.length = 3 ∧
    ∀ j r, b.final.moveLog[j]? = some r → b.results.chain[4 + j]? = some r.before.theta := by
  obtain ⟨⟨a, b⟩, h⟩ := exists_ok (x := Toy.twice .dram 5 4) (by decide +kernel)
  have hab := h
  unfold Toy.twice at h
  rw [bind_ok] at h
  obtain ⟨a', h1, h⟩ := h
  rw [bind_ok] at h
  obtain ⟨b', h2, h⟩ := h
  cases h
  have hr : Reachable Toy.user (newObj Toy.specs { Toy.opts .dram 5 with updatesigma := true }
      Toy.extra Toy.settings Toy.data) { a.obj with
        opts := { Toy.opts .dram 4 with updatesigma := true }, extra := Toy.extra } :=
    .options { method := .dram, nsimu := 4, savesize := 2, updatesigma := true } Toy.extra
      (.run Toy.rng Toy.lapack 100 0 false a .start h1)
  obtain ⟨k0, mu, sigma, -, g1, g2, g3, g4⟩ := C72_decisions hr (by decide) (by decide +kernel) h2
  have e : ({ Toy.opts .dram 4 with updatesigma := true } : SimOpts ℚ).nsimu = 4 := rfl
  have hlen : b.results.chain.length = 8 := by
    have : (Toy.twice .dram 5 4).toOption.map (fun ab => ab.2.results.chain.length) = some 8 := by
      decide +kernel
    rw [hab] at this
    exact Option.some.inj this
  have hm : b.final.moveLog.length = 3 := by
    dsimp only at g2
    rw [e] at g2
    omega
  refine ⟨a, b, hab, hm, fun j r hj => ?_⟩
  have hjl := (List.getElem?_eq_some_iff.1 hj).1
  obtain ⟨ts, hts⟩ : ∃ ts, b.final.trace[j]? = some ts := ⟨_, List.getElem?_eq_getElem (by omega)⟩
  have := (g4 j r ts hj hts).1
  rwa [show k0 = 4 by omega] at this

namespace XRun

/-- the square of the parameter, 0 at values that are not finite -/
noncomputable def squareUser : UserFuns XR 1 (nS XRun.flags) 1 where
  style1 := true
  sosFun _ v := .ok fun _ => match v 0 with | .fin x => .fin (x * x) | _ => .fin 0
  priorFun _ _ _ := .fin 0

/-- three rows, no adaptation, no delayed rejection -/
noncomputable def mhArgs : OptArgs XR := { nsimu := 3, method := .mh }

theorem square_run (L : Lapack XR) :
    ∃ out, runSimulation squareUser XRun.rng L 0 (XRun.obj mhArgs) () false = .ok out := by
  obtain ⟨⟨o1, I, s0⟩, h⟩ := setup_okU squareUser (fun v => by simp [squareUser]) L mhArgs (by decide) rfl
    true 1 1 (some (.variances 1 fun _ => .fin 1)) (.inr (.inl ⟨_, rfl⟩)) (by rintro (h | h) <;> cases h)
  have hst := (setup_fresh h).1
  have hnt' : ¬ 1 < (XRun.obj mhArgs).opts.ntry := by decide
  rcases C64_run_returns (G := XRun.rng) (fuel := 0) h (by decide) (by decide)
    (fun v => by simp [squareUser]) (fun h => absurd h hnt')
    (show XRun.data.n ≠ [] by decide) with h | ⟨_, h, _⟩ | ⟨_, h, _⟩
  · exact h
  · exact absurd h hnt'
  · rw [hst.init.opts, hst.opts, hst.ms] at h
    cases h

theorem settings_sigma2 {ms1 ms2 : ModelSettings XR} {M : ErrModel XR 1}
    (h1 : checkDependentModelSettings XRun.settings XRun.data.n XRun.data.nbatch = .ok ms1)
    (h2 : checkWrtNsos ms1 1 = .ok ms2) (h3 : toErrModel ms2 1 = .ok M) :
    M.sigma2 = fun _ => .fin 1 := by
  have e1 : checkDependentModelSettings XRun.settings XRun.data.n XRun.data.nbatch = .ok
      ⟨some [.fin 1], some [.fin 5], some [.fin 1], some 1, [.fin 1], false⟩ := by
    simp [checkDependentModelSettings, XRun.settings, defineModelSettings, defaultN0, XRun.data, addDataSet,
      ModelSettings.s20Now, Data.nbatch, convertNumpyArrayTo2d, convertToNumpyArray, ofInt]
    rfl
  rw [e1] at h1
  cases h1
  cases h2
  cases h3
  funext i
  have : i = 0 := Subsingleton.elim _ _
  rw [this]
  simp [List.replicate, XR.lit_eq, XR.fin_mul]

end XRun

/-- C72 in exact arithmetic: the first iteration of a Metropolis run for the target `exp(-θ²/2)`. -/
example (L : Lapack XR) : ∃ (out : RunOut XR Unit XRun.flags 1) (r : _) (t : _) (ts : _) (q0 q1 : Fin 1 → ℝ),
    runSimulation XRun.squareUser XRun.rng L 0 (XRun.obj XRun.mhArgs) () false = .ok out ∧
    out.final.moveLog[0]? = some r ∧ out.final.trace[0]? = some (t :: ts) ∧
    (t.accepted = true ↔ InLimits XRun.flags (XRun.specs true) t.theta ∧
      (1 / 2 : ℝ) < Real.exp (-(1 / 2) * (∑ i, q1 i / 1 + 0)) / Real.exp (-(1 / 2) * (∑ i, q0 i / 1 + 0))) := by
  obtain ⟨out, h⟩ := XRun.square_run L
  have hnan : ∀ k, PyFloat.isnan (XRun.specs true k).theta0 = false := fun k => rfl
  have hnm : (((List.finRange 1).filter XRun.flags).map fun k => (XRun.specs true k).name).Nodup := by
    decide
  obtain ⟨k0, mu, sigma, hmu, g1, g2, g3, g4⟩ := C72_decisions .start hnm hnan h
  have hml : out.final.moveLog.length = 2 := by
    have g2' : (out.final.moveLog.length : ℤ) + 1 = 3 := g2
    omega
  obtain ⟨r, hr⟩ : ∃ r, out.final.moveLog[0]? = some r := ⟨_, List.getElem?_eq_getElem (by omega)⟩
  obtain ⟨ts, hts⟩ : ∃ r, out.final.trace[0]? = some r := ⟨_, List.getElem?_eq_getElem (by omega)⟩
  obtain ⟨f1, f2, f3, f4, f5, f6, t, ts', rfl, -⟩ := g4 0 r ts hr hts
  obtain ⟨ss0, v0, e1, -, e2⟩ := (C03_sums_of_squares_belong_to_rows .start h).2 _ _ f1
  rw [f2] at e1
  cases e1
  have hsq : ∀ v ss, SosValue XRun.squareUser v ss →
      ss = fun _ => XR.fin (match v 0 with | .fin x => x * x | _ => 0) := by
    intro v ss hs
    unfold SosValue XRun.squareUser at hs
    simp only [if_true, reduceCtorEq, false_and, or_false] at hs
    rw [← Except.ok.inj hs]
    funext i
    cases v 0 <;> rfl
  have hsig : r.before.sigma2 = fun _ => .fin 1 := by
    rw [f5 (.inr rfl)]
    obtain ⟨o1, I, s0, h1, h2, h3, h4, h5⟩ := runSimulation_ok h
    obtain ⟨ms1, c1, c2, c3⟩ := (setup_start h1).1.init.ms
    rw [(setup_start h1).1.ms, (setup_start h1).1.data] at c1
    rw [h4]
    exact XRun.settings_sigma2 c1 c2 c3
  have hlim : ∃ v1, BelongsTo XRun.flags (XRun.specs true) t.theta v1 :=
    ⟨_, belongsTo_of (v := writeAt (parindOf XRun.flags) t.theta fun k => (XRun.specs true k).theta0)
        (fun i => writeAt_sampled (parindOf_injective XRun.flags) i)
        (fun k hk => writeAt_fixed (not_parindOf hk))⟩
  obtain ⟨v1, hv1⟩ := hlim
  have huniq : ∀ v, BelongsTo XRun.flags (XRun.specs true) t.theta v → v 0 = v1 0 := by
    intro v hv
    have a1 := (belongsTo_eq hv).1
    have a2 := (belongsTo_eq hv1).1
    obtain ⟨i, hi⟩ := exists_parindOf (flags := XRun.flags) (k := 0) rfl
    rw [← hi, a1, a2]
  refine ⟨out, r, t, ts', fun _ => match v0 0 with | .fin x => x * x | _ => 0, fun _ => match v1 0 with | .fin x => x * x | _ => 0, h, hr, hts, ?_⟩
  refine C72_density_ratio .start hnm hnan h hr hts (w := fun _ => 1) (fun _ => one_pos) hsig (hsq _ _ e2)
    (by rw [f3]; rfl) (fun v ss hv hs => ?_) (fun _ _ _ => rfl) (by norm_num) rfl
  rw [hsq v ss hs, huniq v hv]

end Verif
