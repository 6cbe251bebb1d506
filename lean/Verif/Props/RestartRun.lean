import Verif.Props.Restart
import Verif.Props.Continuation
import Verif.Props.Unbounded
import Verif.Props.JointUnbounded
import Verif.Props.AdaptiveChain

/-! # A restarted run is a run started at the saved point (C126, C127) -/

set_option linter.unusedSectionVars false

namespace Verif
variable {F σ : Type} [PyFloat F] {N m : ℕ} {flags : Fin N → Bool}

/-- What the user would write by hand to go on from the saved results `r`: for every parameter named in them
the saved value as `theta0` if it is sampled, and the old `theta0` as centre of the prior if none was given. -/
def ByHand (flags : Fin N → Bool) (r : Saved F) (specs specs' : Fin N → ParamSpec F) : Prop :=
  (∀ k, (specs k).name ∉ r.names → specs' k = specs k) ∧
  ∀ (i : ℕ) k, r.names[i]? = some (specs k).name → ∃ a v, r.parind[i]? = some a ∧ r.theta[a]? = some v ∧
    specs' k = { specs k with
      priorMu := if PyFloat.isnan (specs k).priorMu then (specs k).theta0 else (specs k).priorMu
      theta0 := if flags k then v else (specs k).theta0 }

theorem resultsToParams_byHand {r : Saved F} (hn : r.names.Nodup) (hl : r.parind.length = r.names.length)
    {p q : Fin N → ParamSpec F} (h : resultsToParams flags r.parind r.names r.theta p = .ok q) :
    ByHand flags r p q := by
  have key : ∀ (k : ℕ), k ≤ r.parind.length → ∀ q, (List.range k).foldlM (fun p ii => do
      let parii ← pyGet r.parind ii
      let v ← pyGet r.theta parii
      let name ← pyGet r.names ii
      .ok (resultToParam flags name v p)) p = (.ok q : Except PyErr (Fin N → ParamSpec F)) →
      (∀ j, (p j).name ∉ r.names.take k → q j = p j) ∧
      ∀ (i : ℕ) j, i < k → r.names[i]? = some (p j).name → ∃ a v, r.parind[i]? = some a ∧ r.theta[a]? = some v ∧
        q j = { p j with
          priorMu := if PyFloat.isnan (p j).priorMu then (p j).theta0 else (p j).priorMu
          theta0 := if flags j then v else (p j).theta0 } := by
    intro k
    induction k with
    | zero =>
      intro _ q h
      cases h
      exact ⟨fun _ _ => rfl, fun i j hi => absurd hi (by omega)⟩
    | succ k ih =>
      intro hk q h
      rw [List.range_succ, List.foldlM_append] at h
      obtain ⟨q1, h1, h2⟩ := bind_ok.1 h
      obtain ⟨ih1, ih2⟩ := ih (by omega) q1 h1
      rw [List.foldlM_cons] at h2
      obtain ⟨q2, h4, h3⟩ := bind_ok.1 h2
      obtain rfl : q2 = q := Except.ok.inj h3
      obtain ⟨a, ha, h2⟩ := bind_ok.1 h4
      obtain ⟨v, hv, h2⟩ := bind_ok.1 h2
      obtain ⟨nm, hnm, h2⟩ := bind_ok.1 h2
      obtain rfl := Except.ok.inj h2
      have ha := pyGet_ok.1 ha
      have hv := pyGet_ok.1 hv
      have hnm := pyGet_ok.1 hnm
      have hname : ∀ j, (q1 j).name = (p j).name := by
        intro j
        by_cases hj : (p j).name ∈ r.names.take k
        · obtain ⟨i, hi, he⟩ := List.getElem_of_mem hj
          rw [List.length_take] at hi
          obtain ⟨_, _, _, _, hq⟩ := ih2 i j (by omega) (by
            rw [List.getElem_take] at he
            rw [List.getElem?_eq_getElem (by omega), he])
          rw [hq]
        · rw [ih1 j hj]
      have htk : r.names.take (k + 1) = r.names.take k ++ [nm] := by
        rw [List.take_add_one, hnm]; rfl
      refine ⟨fun j hj => ?_, fun i j hi he => ?_⟩
      · rw [htk, List.mem_append, not_or, List.mem_singleton] at hj
        unfold resultToParam
        rw [if_neg (by rw [hname]; exact fun h => hj.2 h.symm), ih1 j hj.1]
      · by_cases hik : i = k
        · subst hik
          have hnj : nm = (p j).name := Option.some.inj (hnm.symm.trans he)
          have hnot : (p j).name ∉ r.names.take i := by
            rw [← hnj]
            intro hmem
            obtain ⟨i', hi', he'⟩ := List.getElem_of_mem hmem
            rw [List.length_take] at hi'
            rw [List.getElem_take] at he'
            obtain ⟨hlt, hnm'⟩ := List.getElem?_eq_some_iff.1 hnm
            have := (hn.getElem_inj_iff (hi := by omega) (hj := hlt)).1 (he'.trans hnm'.symm)
            omega
          refine ⟨a, v, ha, hv, ?_⟩
          unfold resultToParam
          rw [if_pos (by rw [hname]; exact hnj), ih1 j hnot]
        · obtain ⟨a', v', h1', h2', h3'⟩ := ih2 i j (by omega) he
          refine ⟨a', v', h1', h2', ?_⟩
          unfold resultToParam
          rw [if_neg, h3']
          rw [hname]
          rintro rfl
          obtain ⟨hlt, hnm'⟩ := List.getElem?_eq_some_iff.1 hnm
          obtain ⟨hlt2, he'⟩ := List.getElem?_eq_some_iff.1 he
          exact hik ((hn.getElem_inj_iff (hi := hlt2) (hj := hlt)).1 (he'.trans hnm'.symm))
  obtain ⟨h1, h2⟩ := key r.parind.length le_rfl q h
  rw [hl, List.take_length] at h1
  refine ⟨h1, fun i k hik => h2 i k ?_ hik⟩
  rw [hl]
  exact (List.getElem?_eq_some_iff.1 hik).1

theorem ByHand.unique {r : Saved F} {p q q' : Fin N → ParamSpec F} (h : ByHand flags r p q)
    (h' : ByHand flags r p q') : q = q' := by
  funext k
  by_cases hk : (p k).name ∈ r.names
  · obtain ⟨i, hi, he⟩ := List.getElem_of_mem hk
    have hs : r.names[i]? = some (p k).name := by rw [List.getElem?_eq_getElem hi, he]
    obtain ⟨a, v, h1, h2, h3⟩ := h.2 i k hs
    obtain ⟨a', v', h1', h2', h3'⟩ := h'.2 i k hs
    obtain rfl := Option.some.inj (h1.symm.trans h1')
    obtain rfl := Option.some.inj (h2.symm.trans h2')
    rw [h3, h3']
  · rw [h.1 k hk, h'.1 k hk]

/-- **C126.** Starting a run with `json_restart_file` is the same as writing the saved values into the
parameters by hand and giving the saved covariance as `qcov`: for every file with one value and one name for each
parameter it lists, no name twice, both ways lead to the same results (or to the same exception), the same
saved blocks and the same object, up to the option itself. -/
theorem C126_same_run {U : UserFuns F N (nS flags) m} {G : Rng σ F} {L : Lapack F} {fuel : ℕ} {o : Obj F flags m}
    {rng : σ} {r : Saved F} (hfile : o.extra.jsonRestart = some r) (hn : r.names.Nodup)
    (hl : r.parind.length = r.names.length) (hin : ∀ a ∈ r.parind, a < r.theta.length)
    {specs' : Fin N → ParamSpec F} (hs : ByHand flags r o.specs specs') :
    runSimulation U G L fuel o rng false =
      (runSimulation U G L fuel { o with
        specs := specs', extra := { o.extra with qcov := some r.qcov, jsonRestart := none } } rng false).map
      fun out => { out with obj := { out.obj with extra := { out.obj.extra with jsonRestart := some r } } } := by
  obtain ⟨q, hq⟩ := resultsToParams_exists (flags := flags) (parind := r.parind) (names := r.names) (theta := r.theta)
    (p := o.specs) hin hl.le
  obtain rfl := hs.unique (resultsToParams_byHand hn hl hq)
  have h1 : loadRestart o = .ok { o with specs := specs', extra := { o.extra with qcov := some r.qcov } } := by
    unfold loadRestart
    rw [hfile]
    dsimp only
    rw [hq]
    rfl
  unfold runSimulation setupSimulator
  simp only [Bool.false_eq_true, if_false]
  rw [h1, ok_bind]
  change _ = Except.map _ (((initializeSimulation U L _ rng).bind _).bind _)
  have h2 : initializeSimulation U L { o with specs := specs', extra := { o.extra with qcov := some r.qcov } } rng =
    initializeSimulation U L { o with
      specs := specs', extra := { o.extra with qcov := some r.qcov, jsonRestart := none } } rng := rfl
  rw [h2]
  cases initializeSimulation U L { o with
      specs := specs', extra := { o.extra with qcov := some r.qcov, jsonRestart := none } } rng with
  | error e => rfl
  | ok I =>
    change (Except.bind (if I.opts.nsimu < 0 then _ else _) _) = Except.map _ ((if I.opts.nsimu < 0 then _ else _ : Except PyErr _).bind _)
    by_cases hneg : I.opts.nsimu < 0
    · rw [if_pos hneg, if_pos hneg]; rfl
    rw [if_neg hneg, if_neg hneg]
    cases initializeChains I.opts.nsimu.toNat I.opts.updatesigma I.initialSet I.errModel.sigma2 with
    | error e => rfl
    | ok c =>
      obtain ⟨c, ss, s2⟩ := c
      change ((executeSimulator (⟨I.problem, G, L, runOpts I.opts o.extra, fuel⟩ : Env F σ N (nS flags) m)
        (startState I 0 ⟨c, ss, s2⟩ .live)).bind _) = Except.map _ ((executeSimulator
          (⟨I.problem, G, L, runOpts I.opts o.extra, fuel⟩ : Env F σ N (nS flags) m)
        (startState I 0 ⟨c, ss, s2⟩ .live)).bind _)
      cases executeSimulator (⟨I.problem, G, L, runOpts I.opts o.extra, fuel⟩ : Env F σ N (nS flags) m)
        (startState I 0 ⟨c, ss, s2⟩ .live) with
      | error e => rfl
      | ok s =>
        unfold generateResults
        cases hd : dramResults I.opts s with
        | error e => simp only [Except.bind, hd]; rfl
        | ok d => simp only [Except.bind, hd]; rw [← hfile]; rfl

/-! ### Convergence after an adaptive run -/

section converge
open MeasureTheory
open scoped ENNReal Matrix

/-- A run with exact arithmetic ends at a finite point with a positive definite proposal covariance. -/
theorem exact_run_ends {U : UserFuns XR N (nS flags) m} {G : Rng σ XR} {L : Lapack XR} {fuel : ℕ}
    {o : Obj XR flags m} {rng : σ} {out : RunOut XR σ flags m} (hx : ExactInputs G L o) (hv : ValidProblem U o)
    (h : runSimulation U G L fuel o rng false = .ok out) :
    (∃ t, out.final.oldSet.theta = finVec t) ∧
    ∃ Q : Matrix (Fin (nS flags)) (Fin (nS flags)) ℝ, out.results.qcov = finMx Q ∧ Q.PosDef := by
  obtain ⟨o1, I, s0, h1, h2, h3, h4, h5⟩ := runSimulation_ok h
  obtain ⟨I', s0', t, Q, h1', ht, hQ, hpd⟩ := valid_setup hx hv rng
  rw [h1] at h1'
  cases h1'
  obtain ⟨hE, hI⟩ := start_fin (fuel := fuel) hx h1 nofun hv.delayed ht hQ hpd
  obtain ⟨_, s1, hF, hfin⟩ := executeSimulator_inv (P := fun _ s => FinInv I.opts.ntry.toNat s)
    ⟨hI.old, hI.rows, hI.cov⟩ (fun i a b p hi _ hP hp => hP.step hE hv.sampled hp) h2
  obtain ⟨R, hR, hu⟩ := hF.cov.R
  refine ⟨?_, Rᵀ * R, ?_, ?_⟩
  · rw [hfin]; exact hF.old
  · rw [(generateResults_ok h3).2.2.2.2.2.2.2.2.2.1, hfin, hR]
    exact XR.matMul_fin _ _
  · have h := Matrix.PosDef.conjTranspose_mul_self R (Matrix.mulVec_injective_iff_isUnit.2 hu)
    rwa [Matrix.conjTranspose_eq_transpose_of_trivial] at h

theorem goodCovariance_matrix {k : ℕ} (hk : k = N) {Q : Matrix (Fin k) (Fin k) ℝ} (hQ : Q.PosDef) :
    GoodCovariance N (some (.matrix k (finMx Q))) := by
  subst hk
  exact .inr ⟨Q, rfl, hQ⟩

theorem nS_all (hall : ∀ k, flags k = true) : nS flags = N := by
  unfold nS sampledIdx
  rw [List.filter_eq_self.2 fun k _ => hall k, List.length_finRange]

/-- the centre of the prior, made explicit -/
def centredAt (base p : Fin N → ParamSpec F) : Fin N → ParamSpec F := fun k =>
  { p k with priorMu := if PyFloat.isnan (base k).priorMu then (base k).theta0 else (base k).priorMu }

/-- The problem with another proposal covariance, whose priors are centred as they are from the start `x2`. -/
theorem FixedProblem.restarted {U : UserFuns XR N (nS flags) m} {G : Rng σ XR} {L : Lapack XR}
    {specs : Fin N → ParamSpec XR} {sp : (Fin (nS flags) → ℝ) → Fin N → ParamSpec XR} {opts : SimOpts XR}
    {extra : ExtraOpts XR (nS flags)} {ms : ModelSettings XR} {data : Data}
    {q : (Fin (nS flags) → ℝ) → Fin m → ℝ} {r : (Fin (nS flags) → ℝ) → ℝ} {v : Fin m → ℝ}
    (H : FixedProblem U G L specs sp opts extra ms data q r v) {x2 : Fin (nS flags) → ℝ}
    (hx2 : InLimits flags specs (finVec x2)) {qc : Qcov XR} (hq : GoodCovariance N (some qc)) :
    FixedProblem U G L (centredAt (sp x2) specs) (fun x => centredAt (sp x2) (sp x)) opts
      { extra with qcov := some qc, jsonRestart := none } ms data q r v where
  starts x := by
    refine ⟨fun i k hk => ?_, fun k hk => ?_⟩
    · unfold centredAt
      rw [(H.starts x).1 i k hk]
    · unfold centredAt
      rw [(H.starts x).2 k hk]
  exact x := by
    have h := H.exact x
    exact ⟨h.lapack, h.draws, h.adjust, h.burnin, h.drscale, h.noRam, h.weight, h.scale, h.RDR⟩
  valid x hx := by
    have h := H.valid x hx
    exact ⟨h.nsimu, h.sampled, h.initial, h.limits, h.localFit, h.sos, h.data, h.settings, h.settingsFresh,
      h.observations, hq, h.drscale, h.factors, h.delayed, rfl⟩
  names := H.names
  noAdaptation := H.noAdaptation
  noSampling := H.noSampling
  covariance := rfl
  noFactors := H.noFactors
  sosDim := H.sosDim
  sos := H.sos
  prior x hx mu sigma hp θ := by
    refine H.prior x2 hx2 mu sigma (fun i k hk => ?_) θ
    obtain ⟨⟨h1, h2⟩, h3, h4⟩ := hp i k hk
    have e2 := (H.starts x2).1 i k hk
    have e1 := (H.starts x).1 i k hk
    refine ⟨⟨fun hn => ?_, fun hn => ?_⟩, fun ha hb => ?_, fun ha => ?_⟩
    · have hm : (centredAt (sp x2) (sp x) k).priorMu = (sp x2 k).priorMu := by
        unfold centredAt; dsimp only; rw [if_neg (by simp [hn])]
      rw [hm] at h1
      exact h1 hn
    · have hm : (centredAt (sp x2) (sp x) k).priorMu = (sp x2 k).theta0 := by
        unfold centredAt; dsimp only; rw [if_pos hn]
      rw [hm] at h1
      exact h1 (by rw [e2]; rfl)
    · have hs : (centredAt (sp x2) (sp x) k).priorSigma = (sp x2 k).priorSigma := by
        unfold centredAt; rw [e1, e2]
      rw [hs] at h3
      exact h3 ha hb
    · have hs : (centredAt (sp x2) (sp x) k).priorSigma = (sp x2 k).priorSigma := by
        unfold centredAt; rw [e1, e2]
      rw [hs] at h4
      exact h4 ha
  variances := H.variances
  measurable := H.measurable

/-- The joint problem with another proposal covariance, whose priors are centred as they are from the start `x2`. -/
theorem JointProblem.restarted {U : UserFuns XR N (nS flags) m} {G : Rng σ XR} {L : Lapack XR}
    {specs : Fin N → ParamSpec XR} {sp : (Fin (nS flags) → ℝ) → Fin N → ParamSpec XR} {opts : SimOpts XR}
    {extra : ExtraOpts XR (nS flags)} {ms : (Fin m → ℝ) → ModelSettings XR} {data : Data}
    {q : (Fin (nS flags) → ℝ) → Fin m → ℝ} {r : (Fin (nS flags) → ℝ) → ℝ} {Nobs N0 S20 : Fin m → ℝ}
    {dom : Set ((Fin (nS flags) → ℝ) × (Fin m → ℝ))}
    (H : JointProblem U G L specs sp opts extra ms data q r Nobs N0 S20 dom) {p2 : (Fin (nS flags) → ℝ) × (Fin m → ℝ)}
    (hp2 : p2 ∈ dom) {qc : Qcov XR} (hq : GoodCovariance N (some qc)) :
    JointProblem U G L (centredAt (sp p2.1) specs) (fun x => centredAt (sp p2.1) (sp x)) opts
      { extra with qcov := some qc, jsonRestart := none } ms data q r Nobs N0 S20 dom where
  starts x := by
    refine ⟨fun i k hk => ?_, fun k hk => ?_⟩
    · unfold centredAt
      rw [(H.starts x).1 i k hk]
    · unfold centredAt
      rw [(H.starts x).2 k hk]
  within := H.within
  exact p hp := by
    have h := H.exact p hp
    exact ⟨h.lapack, h.draws, h.adjust, h.burnin, h.drscale, h.noRam, h.weight, h.scale, h.RDR⟩
  valid p hp := by
    have h := H.valid p hp
    exact ⟨h.nsimu, h.sampled, h.initial, h.limits, h.localFit, h.sos, h.data, h.settings, h.settingsFresh,
      h.observations, hq, h.drscale, h.factors, h.delayed, rfl⟩
  noAdaptation := H.noAdaptation
  covariance := rfl
  noFactors := H.noFactors
  sosDim := H.sosDim
  sos := H.sos
  prior p hpd mu sigma hp θ := by
    refine H.prior p2 hp2 mu sigma (fun i k hk => ?_) θ
    obtain ⟨⟨h1, h2⟩, h3, h4⟩ := hp i k hk
    have e2 := (H.starts p2.1).1 i k hk
    have e1 := (H.starts p.1).1 i k hk
    refine ⟨⟨fun hn => ?_, fun hn => ?_⟩, fun ha hb => ?_, fun ha => ?_⟩
    · have hm : (centredAt (sp p2.1) (sp p.1) k).priorMu = (sp p2.1 k).priorMu := by
        unfold centredAt; dsimp only; rw [if_neg (by simp [hn])]
      rw [hm] at h1
      exact h1 hn
    · have hm : (centredAt (sp p2.1) (sp p.1) k).priorMu = (sp p2.1 k).theta0 := by
        unfold centredAt; dsimp only; rw [if_pos hn]
      rw [hm] at h1
      exact h1 (by rw [e2]; rfl)
    · have hs : (centredAt (sp p2.1) (sp p.1) k).priorSigma = (sp p2.1 k).priorSigma := by
        unfold centredAt; rw [e1, e2]
      rw [hs] at h3
      exact h3 ha hb
    · have hs : (centredAt (sp p2.1) (sp p.1) k).priorSigma = (sp p2.1 k).priorSigma := by
        unfold centredAt; rw [e1, e2]
      rw [hs] at h4
      exact h4 ha
  settings := H.settings
  shapes := H.shapes
  rates := H.rates
  measurable := H.measurable

theorem sameResults {β : Sort*} {e e' : Except PyErr (RunOut F σ flags m)} (h : e.map RunOut.results = e'.map RunOut.results)
    (P : β → Results F flags m → Prop) :
    (∃ out t, e = .ok out ∧ P t out.results) ↔ ∃ out t, e' = .ok out ∧ P t out.results := by
  cases e with
  | error a => cases e' with
    | error b => simp
    | ok b => cases h
  | ok a => cases e' with
    | error b => cases h
    | ok b =>
      have : a.results = b.results := Except.ok.inj h
      simp [this]

variable [MeasurableSpace σ] {μ : Measure σ} [IsProbabilityMeasure μ] {σ1 : Type} {m1 : ℕ}

/-- The restart from the results of an exact run is a run without a file from the last row. -/
theorem restart_point {U1 : UserFuns XR N (nS flags) m1} {G1 : Rng σ1 XR} {L1 : Lapack XR} {fuel1 : ℕ}
    {specs1 : Fin N → ParamSpec XR} {opts1 : SimOpts XR} {extra1 : ExtraOpts XR (nS flags)}
    {ms1 : ModelSettings XR} {data1 : Data} {s1 : σ1} {out1 : RunOut XR σ1 flags m1}
    (hx1 : ExactInputs G1 L1 (newObj specs1 opts1 extra1 ms1 data1 : Obj XR flags m1))
    (hv1 : ValidProblem U1 (newObj specs1 opts1 extra1 ms1 data1 : Obj XR flags m1))
    (h1 : runSimulation U1 G1 L1 fuel1 (newObj specs1 opts1 extra1 ms1 data1) s1 false = .ok out1)
    (hall : ∀ k, flags k = true)
    {specs : Fin N → ParamSpec XR} {sp : (Fin (nS flags) → ℝ) → Fin N → ParamSpec XR}
    (hstarts : ∀ x, StartsAt flags specs x (sp x))
    (hnames : (((List.finRange N).filter flags).map fun k => (specs k).name).Nodup)
    (hsame : ∀ k, (specs1 k).name = (specs k).name ∧ (specs1 k).minimum = (specs k).minimum ∧
      (specs1 k).maximum = (specs k).maximum)
    (x2 : Fin (nS flags) → ℝ) :
    ∃ x1 : Fin (nS flags) → ℝ, out1.results.chain.getLast? = some (finVec x1) ∧
      InLimits flags specs (finVec x1) ∧ GoodCovariance N (some (savedOf out1.results).qcov) ∧
      ∀ (U : UserFuns XR N (nS flags) m) (G : Rng σ XR) (L : Lapack XR) (fuel : ℕ) (opts : SimOpts XR)
        (extra : ExtraOpts XR (nS flags)) (ms : ModelSettings XR) (data : Data) (s : σ),
        (runSimulation U G L fuel (newObj (sp x2) opts
          { extra with jsonRestart := some (savedOf out1.results) } ms data) s false).map RunOut.results =
        (runSimulation U G L fuel (newObj (centredAt (sp x2) (sp x1)) opts
          { extra with qcov := some (savedOf out1.results).qcov, jsonRestart := none } ms data) s false).map
            RunOut.results := by
  have hN := nS_all hall
  obtain ⟨⟨x1, hx1'⟩, Q, hQ, hpd⟩ := exact_run_ends hx1 hv1 h1
  have hnames1 : ((sampledIdx flags).map fun k => (specs1 k).name).Nodup := by
    have : ((sampledIdx flags).map fun k => (specs1 k).name) = (sampledIdx flags).map fun k => (specs k).name :=
      List.map_congr_left fun k _ => (hsame k).1
    rw [this]
    exact hnames
  have hre : Reachable U1 (newObj specs1 opts1 extra1 ms1 data1) out1.obj := .run G1 L1 fuel1 s1 false out1 .start h1
  obtain ⟨o1, I, s0, g1, g2, g3, g4, g5⟩ := runSimulation_ok h1
  have hobj : out1.obj.results = some out1.results := by rw [g5]
  obtain ⟨r1, -, r3, last, r4, r5⟩ := (reachable_resInv rfl hnames1 hre).res _ hobj
  have hinv := reachable_objInv rfl hre
  have hl := hinv.len (by rw [hobj]; rfl)
  have hth := (generateResults_ok g3).2.1
  have hlast : last = finVec x1 := by
    funext i
    rw [← r5, hth, writeAt_sampled (parindOf_injective flags), hx1']
  have hlast' : out1.results.chain.getLast? = some (finVec x1) := by
    rw [List.getLast?_eq_getElem?, r1, hl, ← hlast, ← r4]; rfl
  have hin : InLimits flags specs (finVec x1) := by
    have h := C01_rows_within_limits .start h1 _ (List.mem_of_getLast? hlast')
    intro i k hk
    rw [← (hsame k).2.1, ← (hsame k).2.2]
    exact h i k hk
  have hnm : out1.results.names = (sampledIdx flags).map fun k => (specs k).name := by
    rw [r3]
    exact List.map_congr_left fun k _ => (hinv.same.name k).trans (hsame k).1
  have hspn : ∀ x k, (sp x k).name = (specs k).name := by
    intro x k
    obtain ⟨j, rfl⟩ := exists_parindOf (hall k)
    rw [(hstarts x).1 j (parindOf flags j) (List.getElem?_eq_getElem j.isLt)]
  refine ⟨x1, hlast', hin, ?_, fun U G L fuel opts extra ms data s => ?_⟩
  · unfold savedOf
    dsimp only
    rw [hQ]
    exact goodCovariance_matrix hN hpd
  · rw [C126_same_run (r := savedOf out1.results) (specs' := centredAt (sp x2) (sp x1)) rfl]
    · have key : ∀ e : Except PyErr (RunOut XR σ flags m), (e.map fun out => { out with
          obj := { out.obj with extra := { out.obj.extra with jsonRestart := some (savedOf out1.results) } } }).map
            RunOut.results = e.map RunOut.results := by
        intro e; cases e <;> rfl
      exact key _
    · unfold savedOf; dsimp only; rw [hnm]; exact hnames
    · unfold savedOf; dsimp only; rw [hnm, List.length_map, List.length_map]
    · unfold savedOf; dsimp only
      intro a ha
      obtain ⟨k, -, rfl⟩ := List.mem_map.1 ha
      rw [List.length_ofFn]
      exact k.2
    · refine ⟨fun k hk => ?_, fun i k hk => ?_⟩
      · refine absurd ?_ hk
        change (sp x2 k).name ∈ out1.results.names
        rw [hnm, hspn]
        exact List.mem_map_of_mem (mem_sampledIdx.2 (hall k))
      · obtain ⟨j, rfl⟩ := exists_parindOf (hall k)
        have hk' : ((sampledIdx flags).map fun k => (specs k).name)[i]? = some (specs (parindOf flags j)).name := by
          rw [← hnm, ← hspn x2]; exact hk
        have hj : ((sampledIdx flags).map fun k => (specs k).name)[j.val]? = some (specs (parindOf flags j)).name := by
          rw [List.getElem?_map, List.getElem?_eq_getElem j.isLt]; rfl
        have hij : i = j.val := by
          obtain ⟨ha, ha'⟩ := List.getElem?_eq_some_iff.1 hk'
          obtain ⟨hb, hb'⟩ := List.getElem?_eq_some_iff.1 hj
          exact (List.Nodup.getElem_inj_iff (show ((sampledIdx flags).map fun k => (specs k).name).Nodup from
            hnames)).1 (ha'.trans hb'.symm)
        subst hij
        refine ⟨(parindOf flags j).val, finVec x1 j, ?_, ?_, ?_⟩
        · unfold savedOf; dsimp only
          rw [List.getElem?_map, List.getElem?_eq_getElem j.isLt]; rfl
        · unfold savedOf; dsimp only
          rw [List.getElem?_ofFn, dif_pos (parindOf flags j).isLt, r5, hlast]
        · have hidx : ((List.finRange N).filter flags)[j.val]? = some (parindOf flags j) :=
            List.getElem?_eq_getElem j.isLt
          change centredAt (sp x2) (sp x1) (parindOf flags j) = { sp x2 (parindOf flags j) with
            priorMu := if PyFloat.isnan (sp x2 (parindOf flags j)).priorMu then (sp x2 (parindOf flags j)).theta0
              else (sp x2 (parindOf flags j)).priorMu
            theta0 := if flags (parindOf flags j) then finVec x1 j else (sp x2 (parindOf flags j)).theta0 }
          unfold centredAt
          rw [(hstarts x1).1 j _ hidx, (hstarts x2).1 j _ hidx, if_pos (hall _)]
          rfl

/-- The restart from the results of an exact run is a run of a fixed problem with the same posterior. -/
theorem restart_fixed {U1 : UserFuns XR N (nS flags) m1} {G1 : Rng σ1 XR} {L1 : Lapack XR} {fuel1 : ℕ}
    {specs1 : Fin N → ParamSpec XR} {opts1 : SimOpts XR} {extra1 : ExtraOpts XR (nS flags)}
    {ms1 : ModelSettings XR} {data1 : Data} {s1 : σ1} {out1 : RunOut XR σ1 flags m1}
    (hx1 : ExactInputs G1 L1 (newObj specs1 opts1 extra1 ms1 data1 : Obj XR flags m1))
    (hv1 : ValidProblem U1 (newObj specs1 opts1 extra1 ms1 data1 : Obj XR flags m1))
    (h1 : runSimulation U1 G1 L1 fuel1 (newObj specs1 opts1 extra1 ms1 data1) s1 false = .ok out1)
    (hall : ∀ k, flags k = true)
    {U : UserFuns XR N (nS flags) m} {G : Rng σ XR} {L : Lapack XR}
    {specs : Fin N → ParamSpec XR} {sp : (Fin (nS flags) → ℝ) → Fin N → ParamSpec XR} {opts : SimOpts XR}
    {extra : ExtraOpts XR (nS flags)} {ms : ModelSettings XR} {data : Data}
    {q : (Fin (nS flags) → ℝ) → Fin m → ℝ} {r : (Fin (nS flags) → ℝ) → ℝ} {v : Fin m → ℝ}
    (H : ∀ k : ℤ, 1 < k → FixedProblem U G L specs sp { opts with nsimu := k } extra ms data q r v)
    (hsame : ∀ k, (specs1 k).name = (specs k).name ∧ (specs1 k).minimum = (specs k).minimum ∧
      (specs1 k).maximum = (specs k).maximum)
    {x2 : Fin (nS flags) → ℝ} (hx2 : InLimits flags specs (finVec x2)) :
    ∃ x1 : Fin (nS flags) → ℝ, out1.results.chain.getLast? = some (finVec x1) ∧
      InLimits flags specs (finVec x1) ∧
      (∀ k : ℤ, 1 < k → FixedProblem U G L (centredAt (sp x2) specs) (fun x => centredAt (sp x2) (sp x))
        { opts with nsimu := k } { extra with qcov := some (savedOf out1.results).qcov, jsonRestart := none }
        ms data q r v) ∧
      ∀ (k : ℤ) (fuel : ℕ) (s : σ), (runSimulation U G L fuel (newObj (sp x2) { opts with nsimu := k }
          { extra with jsonRestart := some (savedOf out1.results) } ms data) s false).map RunOut.results =
        (runSimulation U G L fuel (newObj (centredAt (sp x2) (sp x1)) { opts with nsimu := k }
          { extra with qcov := some (savedOf out1.results).qcov, jsonRestart := none } ms data) s false).map
            RunOut.results := by
  have H2 := H 2 (by norm_num)
  obtain ⟨x1, h2, h3, h4, h5⟩ := restart_point (σ := σ) (m := m) hx1 hv1 h1 hall H2.starts H2.names hsame x2
  exact ⟨x1, h2, h3, fun k hk => (H k hk).restarted hx2 h4, fun k fuel s => h5 U G L fuel _ extra ms data s⟩

/-- **C127.** Let a first run (with adaptation, delayed rejection and sampled variances or without, from any
generator) write its results to a file, for a problem all of whose parameters are sampled.  A run without adaptation
restarted from the file, with parameters of the same names and limits, converges to the posterior, whatever the
first run did: for every `ε` there is a row number from which on the probability that the row is in `B` is within
`ε` of the posterior probability of `B`, for all measurable sets `B`. -/
theorem C127_converges_after_restart {U1 : UserFuns XR N (nS flags) m1} {G1 : Rng σ1 XR} {L1 : Lapack XR} {fuel1 : ℕ}
    {specs1 : Fin N → ParamSpec XR} {opts1 : SimOpts XR} {extra1 : ExtraOpts XR (nS flags)}
    {ms1 : ModelSettings XR} {data1 : Data} {s1 : σ1} {out1 : RunOut XR σ1 flags m1}
    (hx1 : ExactInputs G1 L1 (newObj specs1 opts1 extra1 ms1 data1 : Obj XR flags m1))
    (hv1 : ValidProblem U1 (newObj specs1 opts1 extra1 ms1 data1 : Obj XR flags m1))
    (h1 : runSimulation U1 G1 L1 fuel1 (newObj specs1 opts1 extra1 ms1 data1) s1 false = .ok out1)
    (hall : ∀ k, flags k = true)
    {U : UserFuns XR N (nS flags) m} {G : Rng σ XR} {L : Lapack XR}
    {specs : Fin N → ParamSpec XR} {sp : (Fin (nS flags) → ℝ) → Fin N → ParamSpec XR} {opts : SimOpts XR}
    {extra : ExtraOpts XR (nS flags)} {ms : ModelSettings XR} {data : Data}
    {q : (Fin (nS flags) → ℝ) → Fin m → ℝ} {r : (Fin (nS flags) → ℝ) → ℝ} {v : Fin m → ℝ}
    (H : ∀ k : ℤ, 1 < k → FixedProblem U G L specs sp { opts with nsimu := k } extra ms data q r v)
    (hsame : ∀ k, (specs1 k).name = (specs k).name ∧ (specs1 k).minimum = (specs k).minimum ∧
      (specs1 k).maximum = (specs k).maximum)
    (D : IdealRng G (nS flags) μ) (hZ0 : posteriorMeasure flags specs q r v Set.univ ≠ 0)
    (hZt : posteriorMeasure flags specs q r v Set.univ ≠ ⊤)
    {x2 : Fin (nS flags) → ℝ} (hx2 : InLimits flags specs (finVec x2)) {ε : ℝ} (hε : 0 < ε) :
    ∃ J : ℕ, ∀ j, J ≤ j → ∀ k : ℤ, 1 < k → (j : ℤ) < k → ∀ fuel, ∀ B : Set (Fin (nS flags) → ℝ), MeasurableSet B →
      |μ.real {s | ∃ out t, runSimulation U G L fuel (newObj (sp x2) { opts with nsimu := k }
            { extra with jsonRestart := some (savedOf out1.results) } ms data) s false
            = .ok out ∧ out.results.chain[j]? = some (finVec t) ∧ t ∈ B} -
        (posteriorMeasure flags specs q r v).real B / (posteriorMeasure flags specs q r v).real Set.univ| ≤ ε := by
  obtain ⟨x1, -, hin, hfix, hrun⟩ := restart_fixed hx1 hv1 h1 hall H hsame hx2
  obtain ⟨J, hJ⟩ := C112_convergence hfix D hZ0 hZt (x := x1) hin hε
  refine ⟨J, fun j hj k hk hjk fuel B hB => ?_⟩
  have h := hJ j hj k hk hjk fuel B hB
  have e : {s | ∃ out t, runSimulation U G L fuel (newObj (sp x2) { opts with nsimu := k }
            { extra with jsonRestart := some (savedOf out1.results) } ms data) s false
            = .ok out ∧ out.results.chain[j]? = some (finVec t) ∧ t ∈ B} =
      {s | ∃ out t, runSimulation U G L fuel (newObj (centredAt (sp x2) (sp x1)) { opts with nsimu := k }
            { extra with qcov := some (savedOf out1.results).qcov, jsonRestart := none } ms data) s false
            = .ok out ∧ out.results.chain[j]? = some (finVec t) ∧ t ∈ B} := by
    ext s
    exact sameResults (hrun k fuel s) fun t res => res.chain[j]? = some (finVec t) ∧ t ∈ B
  rw [e]
  exact h

/-- **C127**, averages: for every function with a finite posterior mean the average over the rows of a long enough
restarted run is within `η` of the posterior mean with probability at least `1 - ε`. -/
theorem C127_means_after_restart {U1 : UserFuns XR N (nS flags) m1} {G1 : Rng σ1 XR} {L1 : Lapack XR} {fuel1 : ℕ}
    {specs1 : Fin N → ParamSpec XR} {opts1 : SimOpts XR} {extra1 : ExtraOpts XR (nS flags)}
    {ms1 : ModelSettings XR} {data1 : Data} {s1 : σ1} {out1 : RunOut XR σ1 flags m1}
    (hx1 : ExactInputs G1 L1 (newObj specs1 opts1 extra1 ms1 data1 : Obj XR flags m1))
    (hv1 : ValidProblem U1 (newObj specs1 opts1 extra1 ms1 data1 : Obj XR flags m1))
    (h1 : runSimulation U1 G1 L1 fuel1 (newObj specs1 opts1 extra1 ms1 data1) s1 false = .ok out1)
    (hall : ∀ k, flags k = true)
    {U : UserFuns XR N (nS flags) m} {G : Rng σ XR} {L : Lapack XR}
    {specs : Fin N → ParamSpec XR} {sp : (Fin (nS flags) → ℝ) → Fin N → ParamSpec XR} {opts : SimOpts XR}
    {extra : ExtraOpts XR (nS flags)} {ms : ModelSettings XR} {data : Data}
    {q : (Fin (nS flags) → ℝ) → Fin m → ℝ} {r : (Fin (nS flags) → ℝ) → ℝ} {v : Fin m → ℝ}
    (H : ∀ k : ℤ, 1 < k → FixedProblem U G L specs sp { opts with nsimu := k } extra ms data q r v)
    (hsame : ∀ k, (specs1 k).name = (specs k).name ∧ (specs1 k).minimum = (specs k).minimum ∧
      (specs1 k).maximum = (specs k).maximum)
    (D : IdealRng G (nS flags) μ) (hZ0 : posteriorMeasure flags specs q r v Set.univ ≠ 0)
    (hZt : posteriorMeasure flags specs q r v Set.univ ≠ ⊤)
    {x2 : Fin (nS flags) → ℝ} (hx2 : InLimits flags specs (finVec x2)) {η ε : ℝ} (hη : 0 < η) (hε : 0 < ε)
    {f : (Fin (nS flags) → ℝ) → ℝ} (hf : Measurable f) (hfi : Integrable f (posteriorMeasure flags specs q r v)) :
    ∃ K : ℕ, ∀ k : ℕ, K ≤ k → ∀ fuel,
        1 - ε ≤ μ.real {s | ∃ out, ∃ t : ℕ → Fin (nS flags) → ℝ,
              runSimulation U G L fuel (newObj (sp x2) { opts with nsimu := k }
                { extra with jsonRestart := some (savedOf out1.results) } ms data) s false
                = .ok out ∧ (∀ j : ℕ, j < k → out.results.chain[j]? = some (finVec (t j))) ∧
              |(∑ j ∈ Finset.range k, f (t j)) / k - (∫ θ, f θ ∂posteriorMeasure flags specs q r v) /
                (posteriorMeasure flags specs q r v).real Set.univ| < η} := by
  obtain ⟨x1, -, hin, hfix, hrun⟩ := restart_fixed hx1 hv1 h1 hall H hsame hx2
  obtain ⟨K, hK⟩ := C113_means hfix D hZ0 hZt (x := x1) hin hη hε hf hfi
  refine ⟨K, fun k hk fuel => (hK k hk fuel).trans (le_of_eq (congrArg _ ?_))⟩
  ext s
  exact (sameResults (hrun k fuel s) fun (t : ℕ → Fin (nS flags) → ℝ) res =>
    (∀ j : ℕ, j < k → res.chain[j]? = some (finVec (t j))) ∧
      |(∑ j ∈ Finset.range k, f (t j)) / k - (∫ θ, f θ ∂posteriorMeasure flags specs q r v) /
        (posteriorMeasure flags specs q r v).real Set.univ| < η).symm

/-- **C127**, sampled error variances: values and variances of the restarted run converge to the joint posterior.  The
variances start from the settings of the restarted script: the restart reads none from the file. -/
theorem C127_joint_after_restart {U1 : UserFuns XR N (nS flags) m1} {G1 : Rng σ1 XR} {L1 : Lapack XR} {fuel1 : ℕ}
    {specs1 : Fin N → ParamSpec XR} {opts1 : SimOpts XR} {extra1 : ExtraOpts XR (nS flags)}
    {ms1 : ModelSettings XR} {data1 : Data} {s1 : σ1} {out1 : RunOut XR σ1 flags m1}
    (hx1 : ExactInputs G1 L1 (newObj specs1 opts1 extra1 ms1 data1 : Obj XR flags m1))
    (hv1 : ValidProblem U1 (newObj specs1 opts1 extra1 ms1 data1 : Obj XR flags m1))
    (h1 : runSimulation U1 G1 L1 fuel1 (newObj specs1 opts1 extra1 ms1 data1) s1 false = .ok out1)
    (hall : ∀ k, flags k = true)
    {U : UserFuns XR N (nS flags) m} {G : Rng σ XR} {L : Lapack XR}
    {specs : Fin N → ParamSpec XR} {sp : (Fin (nS flags) → ℝ) → Fin N → ParamSpec XR} {opts : SimOpts XR}
    {extra : ExtraOpts XR (nS flags)} {ms : (Fin m → ℝ) → ModelSettings XR} {data : Data}
    {q : (Fin (nS flags) → ℝ) → Fin m → ℝ} {r : (Fin (nS flags) → ℝ) → ℝ} {Nobs N0 S20 : Fin m → ℝ}
    {dom : Set ((Fin (nS flags) → ℝ) × (Fin m → ℝ))}
    (H : ∀ k : ℤ, 1 < k → JointProblem U G L specs sp { opts with nsimu := k } extra ms data q r Nobs N0 S20 dom)
    (hsame : ∀ k, (specs1 k).name = (specs k).name ∧ (specs1 k).minimum = (specs k).minimum ∧
      (specs1 k).maximum = (specs k).maximum)
    (hnames : (((List.finRange N).filter flags).map fun k => (specs k).name).Nodup)
    (D : IdealRng G (nS flags) μ) (D1 : IdealRng G 1 μ)
    (hZ0 : jointPosterior flags specs q r Nobs N0 S20 Set.univ ≠ 0)
    (hZt : jointPosterior flags specs q r Nobs N0 S20 Set.univ ≠ ⊤)
    {p : (Fin (nS flags) → ℝ) × (Fin m → ℝ)} (hpd : p ∈ dom)
    (hdom : ∀ x, InLimits flags specs (finVec x) → (x, p.2) ∈ dom) {ε : ℝ} (hε : 0 < ε) :
    ∃ J : ℕ, ∀ j, J ≤ j → ∀ k : ℤ, 1 < k → (j : ℤ) < k →
      ∀ B : Set ((Fin (nS flags) → ℝ) × (Fin m → ℝ)), MeasurableSet B →
        |μ.real {s | ∃ K, ∀ fuel, K ≤ fuel → ∃ out c t w,
            runSimulation U G L fuel (newObj (sp p.1) { opts with nsimu := k }
              { extra with jsonRestart := some (savedOf out1.results) } (ms p.2) data) s false = .ok out ∧
            out.results.s2chain = some c ∧ out.results.chain[j]? = some (finVec t) ∧
            c[j]? = some (finVec w) ∧ (t, w) ∈ B} -
          (jointPosterior flags specs q r Nobs N0 S20).real B /
            (jointPosterior flags specs q r Nobs N0 S20).real Set.univ| ≤ ε := by
  have H2 := H 2 (by norm_num)
  obtain ⟨x1, -, hin, hgood, hrun⟩ := restart_point (σ := σ) (m := m) hx1 hv1 h1 hall H2.starts hnames hsame p.1
  obtain ⟨J, hJ⟩ := C114_convergence (fun k hk => (H k hk).restarted hpd hgood) D D1 hZ0 hZt (p := (x1, p.2))
    (hdom x1 hin) hε
  refine ⟨J, fun j hj k hk hjk B hB => ?_⟩
  have h := hJ j hj k hk hjk B hB
  have key : ∀ s fuel, _ ↔ _ := fun s fuel => sameResults (hrun U G L fuel { opts with nsimu := k } extra (ms p.2) data s)
    fun (t : List (Vec XR m) × (Fin (nS flags) → ℝ) × (Fin m → ℝ)) res =>
      res.s2chain = some t.1 ∧ res.chain[j]? = some (finVec t.2.1) ∧ t.1[j]? = some (finVec t.2.2) ∧ (t.2.1, t.2.2) ∈ B
  simp only [Prod.exists] at key
  simp only [key]
  exact h

/-- **C127**, averages of functions of values and variances with a finite mean under the joint posterior. -/
theorem C127_joint_means_after_restart {U1 : UserFuns XR N (nS flags) m1} {G1 : Rng σ1 XR} {L1 : Lapack XR} {fuel1 : ℕ}
    {specs1 : Fin N → ParamSpec XR} {opts1 : SimOpts XR} {extra1 : ExtraOpts XR (nS flags)}
    {ms1 : ModelSettings XR} {data1 : Data} {s1 : σ1} {out1 : RunOut XR σ1 flags m1}
    (hx1 : ExactInputs G1 L1 (newObj specs1 opts1 extra1 ms1 data1 : Obj XR flags m1))
    (hv1 : ValidProblem U1 (newObj specs1 opts1 extra1 ms1 data1 : Obj XR flags m1))
    (h1 : runSimulation U1 G1 L1 fuel1 (newObj specs1 opts1 extra1 ms1 data1) s1 false = .ok out1)
    (hall : ∀ k, flags k = true)
    {U : UserFuns XR N (nS flags) m} {G : Rng σ XR} {L : Lapack XR}
    {specs : Fin N → ParamSpec XR} {sp : (Fin (nS flags) → ℝ) → Fin N → ParamSpec XR} {opts : SimOpts XR}
    {extra : ExtraOpts XR (nS flags)} {ms : (Fin m → ℝ) → ModelSettings XR} {data : Data}
    {q : (Fin (nS flags) → ℝ) → Fin m → ℝ} {r : (Fin (nS flags) → ℝ) → ℝ} {Nobs N0 S20 : Fin m → ℝ}
    {dom : Set ((Fin (nS flags) → ℝ) × (Fin m → ℝ))}
    (H : ∀ k : ℤ, 1 < k → JointProblem U G L specs sp { opts with nsimu := k } extra ms data q r Nobs N0 S20 dom)
    (hsame : ∀ k, (specs1 k).name = (specs k).name ∧ (specs1 k).minimum = (specs k).minimum ∧
      (specs1 k).maximum = (specs k).maximum)
    (hnames : (((List.finRange N).filter flags).map fun k => (specs k).name).Nodup)
    (D : IdealRng G (nS flags) μ) (D1 : IdealRng G 1 μ)
    (hZ0 : jointPosterior flags specs q r Nobs N0 S20 Set.univ ≠ 0)
    (hZt : jointPosterior flags specs q r Nobs N0 S20 Set.univ ≠ ⊤)
    {p : (Fin (nS flags) → ℝ) × (Fin m → ℝ)} (hpd : p ∈ dom)
    (hdom : ∀ x, InLimits flags specs (finVec x) → (x, p.2) ∈ dom) {η ε : ℝ} (hη : 0 < η) (hε : 0 < ε)
    {f : (Fin (nS flags) → ℝ) × (Fin m → ℝ) → ℝ} (hf : Measurable f)
    (hfi : Integrable f (jointPosterior flags specs q r Nobs N0 S20)) :
    ∃ K0 : ℕ, ∀ k : ℕ, K0 ≤ k →
        1 - ε ≤ μ.real {s | ∃ K, ∀ fuel, K ≤ fuel → ∃ out s2, ∃ t : ℕ → (Fin (nS flags) → ℝ) × (Fin m → ℝ),
              runSimulation U G L fuel (newObj (sp p.1) { opts with nsimu := k }
                { extra with jsonRestart := some (savedOf out1.results) } (ms p.2) data) s false =
                .ok out ∧ out.results.s2chain = some s2 ∧
              (∀ j : ℕ, j < k → out.results.chain[j]? = some (finVec (t j).1) ∧ s2[j]? = some (finVec (t j).2)) ∧
              |(∑ j ∈ Finset.range k, f (t j)) / k - (∫ z, f z ∂jointPosterior flags specs q r Nobs N0 S20) /
                (jointPosterior flags specs q r Nobs N0 S20).real Set.univ| < η} := by
  have H2 := H 2 (by norm_num)
  obtain ⟨x1, -, hin, hgood, hrun⟩ := restart_point (σ := σ) (m := m) hx1 hv1 h1 hall H2.starts hnames hsame p.1
  obtain ⟨K0, hK⟩ := C115_means (fun k hk => (H k hk).restarted hpd hgood) D D1 hZ0 hZt (p := (x1, p.2))
    (hdom x1 hin) hη hε hf hfi
  refine ⟨K0, fun k hk => (hK k hk).trans (le_of_eq (congrArg _ ?_))⟩
  ext s
  have key : ∀ fuel, _ ↔ _ := fun fuel => sameResults (hrun U G L fuel { opts with nsimu := k } extra (ms p.2) data s)
    fun (t : List (Vec XR m) × (ℕ → (Fin (nS flags) → ℝ) × (Fin m → ℝ))) res =>
      res.s2chain = some t.1 ∧
      (∀ j : ℕ, j < k → res.chain[j]? = some (finVec (t.2 j).1) ∧ t.1[j]? = some (finVec (t.2 j).2)) ∧
      |(∑ j ∈ Finset.range k, f (t.2 j)) / k - (∫ z, f z ∂jointPosterior flags specs q r Nobs N0 S20) /
        (jointPosterior flags specs q r Nobs N0 S20).real Set.univ| < η
  simp only [Prod.exists] at key
  exact exists_congr fun K => forall_congr' fun fuel => imp_congr_right fun _ => (key fuel).symm

end converge

/-! ### Examples -/

/-- The hypotheses of C126 are met by the restart of `Toy.restarted`, which completes: by hand the user would write the
first two saved values, the second of which differs from that of the script, and leave the third parameter alone. -/
example : ∃ (a b : RunOut ℚ ℕ Toy.flagsP 1) (specs' : Fin 3 → ParamSpec ℚ),
    runSimulation Toy.userP Toy.rng Toy.lapack 100 (Toy.objP none) 0 false = .ok a ∧
    runSimulation Toy.userP Toy.rng Toy.lapack 100 (Toy.objP (some (savedOf a.results))) 1 false = .ok b ∧
    (savedOf a.results).names.Nodup ∧ (savedOf a.results).parind.length = (savedOf a.results).names.length ∧
    (∀ k ∈ (savedOf a.results).parind, k < (savedOf a.results).theta.length) ∧
    ByHand Toy.flagsP (savedOf a.results) Toy.specsP specs' ∧
    (specs' 1).theta0 = a.results.theta 1 ∧ a.results.theta 1 ≠ (Toy.specsP 1).theta0 ∧
    specs' 2 = Toy.specsP 2 := by
  obtain ⟨⟨a, b⟩, h, h'⟩ := exists_ok_and (x := Toy.restarted) (fun p : RunOut ℚ ℕ Toy.flagsP 1 × RunOut ℚ ℕ Toy.flagsP 1 =>
    decide (p.1.results.names = ["a", "b"] ∧ p.1.results.theta 1 ≠ (Toy.specsP 1).theta0)) (by decide +kernel)
  obtain ⟨hn, ht⟩ := of_decide_eq_true h'
  unfold Toy.restarted at h
  obtain ⟨a', ha, h⟩ := bind_ok.1 h
  obtain ⟨b', hb, h⟩ := bind_ok.1 h
  cases h
  have h1 : (savedOf a.results).names.Nodup := by change a.results.names.Nodup; rw [hn]; decide
  have h2 : (savedOf a.results).parind.length = (savedOf a.results).names.length := by
    change _ = a.results.names.length; rw [hn]; rfl
  have h3 : ∀ k ∈ (savedOf a.results).parind, k < (savedOf a.results).theta.length := by
    intro k hk
    change k < (List.ofFn a.results.theta).length
    rw [List.length_ofFn]
    obtain ⟨j, -, rfl⟩ := List.mem_map.1 hk
    exact j.2
  obtain ⟨q, hq⟩ := resultsToParams_exists (flags := Toy.flagsP) (p := Toy.specsP) h3 h2.le
  have hby := resultsToParams_byHand h1 h2 hq
  refine ⟨a, b, q, ha, hb, h1, h2, h3, hby, ?_, ht, hby.1 2 ?_⟩
  · obtain ⟨i, v, hi, hv, hs⟩ := hby.2 1 1 (by change a.results.names[1]? = _; rw [hn]; decide +kernel)
    have hi0 : i = 1 := by
      have e : (savedOf a.results).parind[1]? = some 1 := rfl
      exact (Option.some.inj (e.symm.trans hi)).symm
    subst hi0
    have hv' : v = a.results.theta 1 := by
      change (List.ofFn a.results.theta)[1]? = some v at hv
      rw [List.getElem?_ofFn, dif_pos (by decide)] at hv
      exact (Option.some.inj hv).symm
    rw [hs, hv']
    rfl
  · change _ ∉ a.results.names
    rw [hn]
    decide +kernel

/-- a DRAM run of 1000 rows from 1000000 -/
noncomputable def XRun.dramObj : Obj XR XRun.flags 1 :=
  newObj (XRun.freeAt fun _ => 1000000) (defineSimulationOptions { nsimu := 1000, method := .dram })
    (XRun.extra 1 1) XRun.settings XRun.data

theorem XRun.dram_exact : ExactInputs (coinRng (nS XRun.flags)) choleskyLapack XRun.dramObj where
  lapack := choleskyLapack_ok
  draws := fun _ => ⟨_, rfl⟩
  adjust := ⟨1, rfl⟩
  burnin := ⟨10, rfl, by norm_num⟩
  drscale := ⟨[5], rfl, by simp⟩
  noRam := rfl
  weight := .inl rfl
  scale := ⟨_, .inl ⟨rfl, rfl⟩⟩
  RDR := nofun

theorem XRun.dram_valid : ValidProblem XRun.user XRun.dramObj where
  nsimu := show (1 : ℤ) < 1000 by decide
  sampled := by decide
  initial := fun _ => ⟨_, rfl⟩
  limits := fun k _ => ⟨rfl, rfl⟩
  localFit := .inl rfl
  sos := fun v => by simp [XRun.user]
  data := show XRun.data.n ≠ [] by decide
  settings := ⟨fun v hv => by cases hv; exact .inl rfl, nofun, nofun, .inr (.inl rfl),
      .inl (show XRun.data.n.length ≤ 1 by decide)⟩
  settingsFresh := rfl
  observations := rfl
  covariance := .inl ⟨fun _ => 1, rfl, fun _ => one_pos⟩
  drscale := by change [XR.fin 5] ≠ []; simp
  factors := nofun
  delayed := fun _ => ⟨.inr rfl, rfl, fun _ => ⟨show (0 : ℤ) ≤ 100 by decide, by
      change [XR.fin 5] ≠ []; simp⟩⟩
  noRestart := rfl

/-- C127 for the posterior `exp(-θ²/2)` on the whole line: first that DRAM run, then runs restarted from its file. -/
example (s1 : CoinState (nS XRun.flags)) : ∃ out1,
    runSimulation XRun.user (coinRng (nS XRun.flags)) choleskyLapack 0 XRun.dramObj s1 false = .ok out1 ∧
    100 ∈ out1.final.adaptedAt ∧
    ∃ J : ℕ, ∀ j, J ≤ j → ∀ k : ℤ, 1 < k → (j : ℤ) < k →
    |(coinLaw (nS XRun.flags)).real {s | ∃ out t, runSimulation XRun.user (coinRng (nS XRun.flags)) exactLapack 0
          (newObj (m := 1) (XRun.freeAt fun _ => 7) (defineSimulationOptions { nsimu := k, method := .dr })
            { XRun.extra 1 1 with jsonRestart := some (savedOf out1.results) } XRun.settings XRun.data) s false
              = .ok out ∧
          out.results.chain[j]? = some (finVec t) ∧ t ∈ {t | 0 ≤ t ⟨0, by decide⟩}} -
      (posteriorMeasure (m := 1) XRun.flags XRun.freeSpecs
        (fun θ _ => θ ⟨0, by decide⟩ * θ ⟨0, by decide⟩) (fun _ => 0) (fun _ => 1)).real
          {t | 0 ≤ t ⟨0, by decide⟩} /
      (posteriorMeasure (m := 1) XRun.flags XRun.freeSpecs
        (fun θ _ => θ ⟨0, by decide⟩ * θ ⟨0, by decide⟩) (fun _ => 0) (fun _ => 1)).real Set.univ| ≤ 1 / 100 := by
  obtain ⟨out1, h1, -⟩ := C76_fixed_variance (fuel := 0) XRun.dram_exact XRun.dram_valid s1 rfl rfl
  refine ⟨out1, h1, (((C14_adaptation_schedule_partial h1).1 (show (0 : ℤ) < 100 by decide)).2 100).2
      ⟨by decide, show (100 : ℤ) < 1000 by decide, show (100 : ℤ) ∣ 100 by decide⟩, ?_⟩
  obtain ⟨J, h⟩ := C127_converges_after_restart XRun.dram_exact XRun.dram_valid h1 (by decide)
    (opts := defineSimulationOptions { nsimu := 2, method := .dr }) XRun.freeProblem (fun _ => ⟨rfl, rfl, rfl⟩)
    (coinIdeal _) XRun.free_mass.1 XRun.free_mass.2 (XRun.free_inLimits fun _ => 7) (ε := 1 / 100) (by norm_num)
  exact ⟨J, fun j hj k hk hjk => h j hj k hk hjk 0 _ (measurableSet_le measurable_const (measurable_pi_apply _))⟩

/-- and the averages of the rows -/
example (s1 : CoinState (nS XRun.flags)) : ∃ out1,
    runSimulation XRun.user (coinRng (nS XRun.flags)) choleskyLapack 0 XRun.dramObj s1 false = .ok out1 ∧
    ∃ K : ℕ, ∀ k : ℕ, K ≤ k →
    1 - 1 / 100 ≤
      (coinLaw (nS XRun.flags)).real {s | ∃ out, ∃ t : ℕ → Fin (nS XRun.flags) → ℝ,
        runSimulation XRun.user (coinRng (nS XRun.flags)) exactLapack 0
          (newObj (m := 1) (XRun.freeAt fun _ => 7) (defineSimulationOptions { nsimu := k, method := .dr })
            { XRun.extra 1 1 with jsonRestart := some (savedOf out1.results) } XRun.settings XRun.data) s false
              = .ok out ∧
        (∀ j : ℕ, j < k → out.results.chain[j]? = some (finVec (t j))) ∧
        |(∑ j ∈ Finset.range k, t j ⟨0, by decide⟩) / k -
          (∫ θ, θ ⟨0, by decide⟩ ∂(posteriorMeasure (m := 1) XRun.flags XRun.freeSpecs
            (fun θ _ => θ ⟨0, by decide⟩ * θ ⟨0, by decide⟩) (fun _ => 0) (fun _ => 1))) /
          (posteriorMeasure (m := 1) XRun.flags XRun.freeSpecs
            (fun θ _ => θ ⟨0, by decide⟩ * θ ⟨0, by decide⟩) (fun _ => 0) (fun _ => 1)).real Set.univ| < 1 / 10} := by
  obtain ⟨out1, h1, -⟩ := C76_fixed_variance (fuel := 0) XRun.dram_exact XRun.dram_valid s1 rfl rfl
  obtain ⟨K, h⟩ := C127_means_after_restart XRun.dram_exact XRun.dram_valid h1 (by decide)
    (opts := defineSimulationOptions { nsimu := 2, method := .dr }) XRun.freeProblem (fun _ => ⟨rfl, rfl, rfl⟩)
    (coinIdeal _) XRun.free_mass.1 XRun.free_mass.2 (XRun.free_inLimits fun _ => 7) (η := 1 / 10) (ε := 1 / 100)
    (by norm_num) (by norm_num) (measurable_pi_apply _) XRun.free_mean
  exact ⟨out1, h1, K, fun k hk => h k hk 0⟩

/-- C127 with a sampled error variance: the restarted runs sample it, starting from 2 -/
example (s1 : CoinState (nS XRun.flags)) : ∃ out1,
    runSimulation XRun.user (coinRng (nS XRun.flags)) choleskyLapack 0 XRun.dramObj s1 false = .ok out1 ∧
    ∃ J : ℕ, ∀ j, J ≤ j → ∀ k : ℤ, 1 < k → (j : ℤ) < k →
    |(coinLaw (nS XRun.flags)).real {s | ∃ K, ∀ fuel, K ≤ fuel → ∃ out c t w,
        runSimulation XRun.user (coinRng (nS XRun.flags)) exactLapack fuel
          (newObj (m := 1) (XRun.freeAt fun _ => 7)
            (defineSimulationOptions { nsimu := k, method := .dr, updatesigma := true })
            { XRun.extra 1 1 with jsonRestart := some (savedOf out1.results) } (XRun.settingsAt fun _ => 2) XRun.data)
          s false = .ok out ∧
        out.results.s2chain = some c ∧ out.results.chain[j]? = some (finVec t) ∧ c[j]? = some (finVec w) ∧
        (t, w) ∈ {z : (Fin (nS XRun.flags) → ℝ) × (Fin 1 → ℝ) | z.1 ⟨0, by decide⟩ ≤ 1 ∧ z.2 0 ≤ 1}} -
      (jointPosterior (m := 1) XRun.flags XRun.freeSpecs (fun θ _ => θ ⟨0, by decide⟩ * θ ⟨0, by decide⟩)
        (fun _ => 0) (fun _ => 5) (fun _ => 1) (fun _ => 1)).real
        {z : (Fin (nS XRun.flags) → ℝ) × (Fin 1 → ℝ) | z.1 ⟨0, by decide⟩ ≤ 1 ∧ z.2 0 ≤ 1} /
      (jointPosterior (m := 1) XRun.flags XRun.freeSpecs (fun θ _ => θ ⟨0, by decide⟩ * θ ⟨0, by decide⟩)
        (fun _ => 0) (fun _ => 5) (fun _ => 1) (fun _ => 1)).real Set.univ| ≤ 1 / 100 := by
  have D1 : IdealRng (coinRng (nS XRun.flags)) 1 (coinLaw (nS XRun.flags)) := by
    rw [XRun.nS_flags]; exact coinIdeal 1
  obtain ⟨out1, h1, -⟩ := C76_fixed_variance (fuel := 0) XRun.dram_exact XRun.dram_valid s1 rfl rfl
  obtain ⟨J, h⟩ := C127_joint_after_restart XRun.dram_exact XRun.dram_valid h1 (by decide)
    (opts := defineSimulationOptions { nsimu := 2, method := .dr, updatesigma := true }) XRun.freeJoint
    (fun _ => ⟨rfl, rfl, rfl⟩) (XRun.freeProblem 2 (by norm_num)).names
    (coinIdeal _) D1 XRun.freeJoint_mass.1 XRun.freeJoint_mass.2 (p := (fun _ => 7, fun _ => 2))
    ⟨XRun.free_inLimits _, fun _ => by norm_num⟩ (fun x _ => ⟨XRun.free_inLimits x, fun _ => by norm_num⟩) (ε := 1 / 100) (by norm_num)
  exact ⟨out1, h1, J, fun j hj k hk hjk => h j hj k hk hjk _
    ((measurableSet_le ((measurable_pi_apply _).comp measurable_fst) measurable_const).inter
      (measurableSet_le ((measurable_pi_apply _).comp measurable_snd) measurable_const))⟩

/-- and the averages of the values -/
example (s1 : CoinState (nS XRun.flags)) : ∃ out1,
    runSimulation XRun.user (coinRng (nS XRun.flags)) choleskyLapack 0 XRun.dramObj s1 false = .ok out1 ∧
    ∃ K0 : ℕ, ∀ k : ℕ, K0 ≤ k →
    1 - 1 / 100 ≤
      (coinLaw (nS XRun.flags)).real {s | ∃ K, ∀ fuel, K ≤ fuel → ∃ out s2,
        ∃ t : ℕ → (Fin (nS XRun.flags) → ℝ) × (Fin 1 → ℝ),
        runSimulation XRun.user (coinRng (nS XRun.flags)) exactLapack fuel
          (newObj (m := 1) (XRun.freeAt fun _ => 7)
            (defineSimulationOptions { nsimu := k, method := .dr, updatesigma := true })
            { XRun.extra 1 1 with jsonRestart := some (savedOf out1.results) } (XRun.settingsAt fun _ => 2) XRun.data)
          s false = .ok out ∧
        out.results.s2chain = some s2 ∧
        (∀ j : ℕ, j < k → out.results.chain[j]? = some (finVec (t j).1) ∧ s2[j]? = some (finVec (t j).2)) ∧
        |(∑ j ∈ Finset.range k, (t j).1 ⟨0, by decide⟩) / k -
          (∫ z, z.1 ⟨0, by decide⟩ ∂(jointPosterior (m := 1) XRun.flags XRun.freeSpecs (fun θ _ => θ ⟨0, by decide⟩ * θ ⟨0, by decide⟩)
        (fun _ => 0) (fun _ => 5) (fun _ => 1) (fun _ => 1))) /
          (jointPosterior (m := 1) XRun.flags XRun.freeSpecs (fun θ _ => θ ⟨0, by decide⟩ * θ ⟨0, by decide⟩)
        (fun _ => 0) (fun _ => 5) (fun _ => 1) (fun _ => 1)).real Set.univ| < 1 / 10} := by
  have D1 : IdealRng (coinRng (nS XRun.flags)) 1 (coinLaw (nS XRun.flags)) := by
    rw [XRun.nS_flags]; exact coinIdeal 1
  obtain ⟨out1, h1, -⟩ := C76_fixed_variance (fuel := 0) XRun.dram_exact XRun.dram_valid s1 rfl rfl
  exact ⟨out1, h1, C127_joint_means_after_restart XRun.dram_exact XRun.dram_valid h1 (by decide)
    (opts := defineSimulationOptions { nsimu := 2, method := .dr, updatesigma := true }) XRun.freeJoint
    (fun _ => ⟨rfl, rfl, rfl⟩) (XRun.freeProblem 2 (by norm_num)).names
    (coinIdeal _) D1 XRun.freeJoint_mass.1 XRun.freeJoint_mass.2 (p := (fun _ => 7, fun _ => 2))
    ⟨XRun.free_inLimits _, fun _ => by norm_num⟩ (fun x _ => ⟨XRun.free_inLimits x, fun _ => by norm_num⟩)
    (η := 1 / 10) (ε := 1 / 100) (by norm_num)
    (by norm_num) (f := fun z => z.1 ⟨0, by decide⟩) ((measurable_pi_apply _).comp measurable_fst)
    XRun.freeJoint_mean⟩

end Verif
