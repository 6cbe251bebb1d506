import Verif.Lemmas.FiniteRun
import Verif.Props.Progress
import Verif.Props.Continue
import Verif.Props.Covariance

/-! # C17, C21, C65: the proposal factors of a run -/

set_option linter.unusedSectionVars false

namespace Verif
open Matrix
variable {σ : Type} {N n m : ℕ} {flags : Fin N → Bool}

/-! ### C21 -/

/-- **C21**, default variances: positive and finite for every prior standard deviation, be it finite,
zero, infinite or NaN, and every finite initial value. -/
theorem C21_default_variance (sig : XR) (t : ℝ) :
    ∃ v : ℝ, 0 < v ∧ defaultVariance sig (.fin t) = .fin v ∧
      v = match sig with
        | .fin x => if x = 0 then 1 else x ^ 2
        | _ => if t = 0 then 1 else (t / 20) ^ 2 := by
  have hpos : ∀ x y : ℝ, 0 < (if x = 0 then (1 : ℝ) else (x / y) ^ 2) ∨ y = 0 := by
    intro x y
    by_cases hy : y = 0
    · exact .inr hy
    · left
      split
      · exact one_pos
      · rename_i hx
        exact sq_pos_of_ne_zero (div_ne_zero hx hy)
  have h20 := fun x => (hpos x 20).resolve_right (by norm_num)
  cases sig with
  | fin x => exact ⟨_, by simpa using (hpos x 1).resolve_right one_ne_zero, defaultVariance_fin x t, rfl⟩
  | nan => exact ⟨_, h20 t, defaultVariance_unbounded (.inl rfl) t, rfl⟩
  | pinf => exact ⟨_, h20 t, defaultVariance_unbounded (.inr (.inl rfl)) t, rfl⟩
  | ninf => exact ⟨_, h20 t, defaultVariance_unbounded (.inr (.inr rfl)) t, rfl⟩

/-- The factor with which a run starts, when no factors for delayed rejection are given. -/
theorem initial_factor {U : UserFuns XR N (nS flags) m} {L : Lapack XR} (hL : ExactLapack L)
    {o o1 : Obj XR flags m} {rng : σ} {I : Init XR σ flags m} {s0 : SimState XR σ N (nS flags) m}
    {up : Bool} (h : setupSimulator U L o rng up = .ok (o1, I, s0)) (hR : o.extra.RDR = none)
    {Q : Matrix (Fin (nS flags)) (Fin (nS flags)) ℝ} (hQ : I.cov.qcov = finMx Q) (hpd : Q.PosDef) :
    ∃ R, I.cov.R = finMx R ∧ Rᵀ * R = Q := by
  have hinit := initializeSimulation_cov (setupSimulator_init h)
  obtain ⟨_, ⟨R, h1, h2⟩, _⟩ := initCovState_ok hinit
  rw [hQ] at h1
  obtain ⟨r, e1, e2⟩ := setupRMatrix_exact hL (parindOf_injective flags) hpd h1
  refine ⟨r, ?_, e2⟩
  split at h2
  · obtain ⟨l, il, h2, _⟩ := h2
    have hex := setup_extra h
    have : o1.extra.RDR = none := by rw [hex]; exact hR
    rw [this] at h2
    unfold setupRDRMatrix at h2
    dsimp only at h2
    obtain ⟨iR, _, h2⟩ := bind_ok.1 h2
    obtain ⟨⟨l', il'⟩, _, h2⟩ := bind_ok.1 h2
    have := congrArg (fun x => x.1) (Except.ok.inj h2)
    dsimp only at this
    rw [← this]
    exact e1
  · rw [h2.1]; exact e1

/-- **C21.** A run that is set up from finite initial values without a covariance starts with a
diagonal covariance of positive variances, those of `C21_default_variance`, and a factor `R` with
`RᵀR` equal to it. -/
theorem C21_default_factor {U : UserFuns XR N (nS flags) m} {L : Lapack XR} (hL : ExactLapack L)
    {o o1 : Obj XR flags m} {rng : σ} {I : Init XR σ flags m} {s0 : SimState XR σ N (nS flags) m}
    {up : Bool} (h : setupSimulator U L o rng up = .ok (o1, I, s0)) (hR : o.extra.RDR = none)
    (hq : o1.extra.qcov = none) {t : Fin N → ℝ} (ht : ∀ k, (o1.specs k).theta0 = .fin (t k)) :
    ∃ (v : Fin N → ℝ) (R : Matrix (Fin (nS flags)) (Fin (nS flags)) ℝ),
      (∀ k, 0 < v k ∧
        defaultVariance (setupPriorSigma (o1.specs k).priorSigma) (o1.specs k).theta0 = .fin (v k)) ∧
      I.cov.qcov = finMx (diagonal fun i => v (parindOf flags i)) ∧
      I.cov.R = finMx R ∧ Rᵀ * R = diagonal fun i => v (parindOf flags i) := by
  have hv := fun k => C21_default_variance (setupPriorSigma (o1.specs k).priorSigma) (t k)
  choose v hv1 hv2 _ using hv
  have hinit := initializeSimulation_cov (setupSimulator_init h)
  obtain ⟨_, ⟨R, h1, h2⟩, _⟩ := initCovState_ok hinit
  have hqc : I.cov.qcov = finMx (diagonal fun i => v (parindOf flags i)) := by
    rw [hq] at h1
    unfold setupCovarianceMatrix setupRMatrix at h1
    dsimp only at h1
    obtain ⟨qc, h3, h1⟩ := bind_ok.1 h1
    have hqe : qc = I.cov.qcov := by
      split at h1
      · exact congrArg Prod.snd (Except.ok.inj h1)
      · split at h1
        · exact congrArg Prod.snd (Except.ok.inj h1)
        · split at h1
          · exact congrArg Prod.snd (Except.ok.inj h1)
          · cases h1
    rw [← hqe]
    funext i j
    obtain ⟨hi, hj, e⟩ := ixRestrict_ok h3 i j
    rw [e]
    unfold diagflat finMx finMat
    by_cases hij : i = j
    · subst hij
      rw [if_pos rfl, diagonal_apply_eq]
      dsimp only
      rw [ht, hv2]
    · rw [if_neg (by
        intro e'
        have e' := congrArg Fin.val e'
        exact hij (parindOf_injective flags (Fin.ext e'))), diagonal_apply_ne _ hij]
      simp
  obtain ⟨r, e1, e2⟩ := initial_factor hL h hR hqc (.diagonal fun i => hv1 _)
  exact ⟨v, r, fun k => ⟨hv1 k, by rw [ht]; exact hv2 k⟩, hqc, e1, e2⟩

/-- **C21**, given covariance: when the covariance restricted to the sampled parameters is positive
definite, the initial factor satisfies `RᵀR = Q`. -/
theorem C21_given_covariance {U : UserFuns XR N (nS flags) m} {L : Lapack XR} (hL : ExactLapack L)
    {o o1 : Obj XR flags m} {rng : σ} {I : Init XR σ flags m} {s0 : SimState XR σ N (nS flags) m}
    {up : Bool} (h : setupSimulator U L o rng up = .ok (o1, I, s0)) (hR : o.extra.RDR = none)
    {M : Matrix (Fin N) (Fin N) ℝ} (hM : o1.extra.qcov = some (.matrix N (finMx M)))
    (hpd : (M.submatrix (parindOf flags) (parindOf flags)).PosDef) :
    I.cov.qcov = finMx (M.submatrix (parindOf flags) (parindOf flags)) ∧
    ∃ R, I.cov.R = finMx R ∧ Rᵀ * R = M.submatrix (parindOf flags) (parindOf flags) := by
  have hinit := initializeSimulation_cov (setupSimulator_init h)
  obtain ⟨_, ⟨R, h1, h2⟩, _⟩ := initCovState_ok hinit
  have hqc : I.cov.qcov = finMx (M.submatrix (parindOf flags) (parindOf flags)) := by
    rw [hM] at h1
    unfold setupCovarianceMatrix setupRMatrix at h1
    dsimp only at h1
    obtain ⟨qc, h3, h1⟩ := bind_ok.1 h1
    have hqe : qc = I.cov.qcov := by
      split at h1
      · exact congrArg Prod.snd (Except.ok.inj h1)
      · split at h1
        · exact congrArg Prod.snd (Except.ok.inj h1)
        · split at h1
          · exact congrArg Prod.snd (Except.ok.inj h1)
          · cases h1
    rw [← hqe]
    funext i j
    obtain ⟨hi, hj, e⟩ := ixRestrict_ok h3 i j
    rw [e]
    rfl
  exact ⟨hqc, initial_factor hL h hR hqc hpd⟩

/-! ### C65 -/

/-- Inputs of a run in exact arithmetic: exact linear algebra, finite normal draws, finite options with
non-zero scales, covariance taken from the chain, prior weight of the covariance absent or at least
one, factors for delayed rejection absent or finite and invertible. -/
structure ExactInputs (G : Rng σ XR) (L : Lapack XR) (o : Obj XR flags m) : Prop where
  lapack : ExactLapack L
  draws : ∀ s, ∃ z, (G.randn (nS flags) s).1 = finVec z
  adjust : ∃ ε, o.extra.qcovAdjust = .fin ε
  burnin : ∃ b, o.extra.burninScale = .fin b ∧ b ≠ 0
  drscale : ∃ ds : List ℝ, o.extra.drscale = ds.map .fin ∧ ∀ d ∈ ds, d ≠ 0
  noRam : o.opts.doram = false
  weight : o.opts.initqcovn = none ∨ ∃ w : ℝ, o.opts.initqcovn = some (.fin w) ∧ 1 ≤ w
  scale : ∃ s, IsScale o.opts.adascale (nS flags) s
  RDR : ∀ l, o.extra.RDR = some l → ∀ M ∈ l, ∃ A : Matrix (Fin (nS flags)) (Fin (nS flags)) ℝ,
    M = finMx A ∧ IsUnit A

theorem stageFactors_setup {L : Lapack XR} (hL : ExactLapack L) {R : Matrix (Fin n) (Fin n) ℝ}
    {ds : List ℝ} (h0 : ∀ d ∈ ds, d ≠ 0) {ntry : ℕ} (hnt : 0 < ntry) {c : CovState XR n}
    {R' : Mat XR n} {l il : List (Mat XR n)}
    (h : setupRDRMatrix L (finMx R) ntry (ds.map .fin) none = .ok (R', l, il))
    (h1 : c.RDR = .some l) (h2 : c.invR = some il) :
    R' = finMx R ∧ StageFactors ds ntry R c := by
  unfold setupRDRMatrix at h
  dsimp only at h
  obtain ⟨iR, h3, h⟩ := bind_ok.1 h
  obtain ⟨⟨l', il'⟩, h4, h⟩ := bind_ok.1 h
  have h := Except.ok.inj h
  rw [Prod.mk.injEq, Prod.mk.injEq] at h
  obtain ⟨rfl, rfl, rfl⟩ := h
  have h3 := orRaise_ok.1 h3
  refine ⟨rfl, ?_⟩
  by_cases hu : IsUnit R
  · obtain ⟨b, e1, e2⟩ := hL.inv_some _ hu
    rw [e1] at h3
    cases h3
    have hz : (stageScale ds 0)⁻¹ • R = R := by simp [stageScale]
    have hb : ((stageScale ds 0)⁻¹ • R) * b = 1 := by rw [hz, e2]
    rw [← hz] at h4
    have hst := StagesFrom.cons hb (rdrSetupLoop_stages hL h0 R h4)
    obtain ⟨l1, l2⟩ := rdrSetupLoop_length h4
    dsimp only at l1 l2 hst
    rw [hz] at hst
    refine ⟨_, _, h1, h2, by simp; omega, by simp; omega, fun k hk => ?_⟩
    have := hst k (by simp; omega)
    rwa [zero_add] at this
  · rw [hL.inv_none _ hu] at h3
    cases h3

theorem start_fin {U : UserFuns XR N (nS flags) m} {G : Rng σ XR} {L : Lapack XR} {fuel : ℕ}
    {o o1 : Obj XR flags m} {rng : σ} {up : Bool} {I : Init XR σ flags m} {s0 : SimState XR σ N (nS flags) m}
    (hx : ExactInputs G L o) (h : setupSimulator U L o rng up = .ok (o1, I, s0))
    (hch : up = true → ∀ row ∈ o.chains.chain, ∃ r, row = finVec r)
    (hdr : 1 < o.opts.ntry → SupportsDR o.opts o.extra.drscale)
    {t : Fin (nS flags) → ℝ} (ht : I.initialSet.theta = finVec t)
    {Q : Matrix (Fin (nS flags)) (Fin (nS flags)) ℝ} (hQ : I.cov.qcov = finMx Q) (hpd : Q.PosDef) :
    FinEnv ⟨I.problem, G, L, runOpts I.opts o1.extra, fuel⟩ ∧
      FinInv I.opts.ntry.toNat s0 := by
  obtain ⟨hst, hpos⟩ := setup_start h
  have hin := setupSimulator_init h
  have hopts : I.opts = checkDependentSimulationOptions o.opts o.ms.N0.isSome := by
    rw [hst.init.opts, hst.opts, hst.ms]
  have e1 : I.opts.ntry = o.opts.ntry := by rw [hopts]; rfl
  have e2 : I.opts.doram = o.opts.doram := by rw [hopts]; rfl
  have e5 : I.opts.method = o.opts.method := by rw [hopts]; rfl
  have e6 : I.opts.initqcovn = o.opts.initqcovn := by rw [hopts]; rfl
  have e7 : I.opts.adascale = o.opts.adascale := by rw [hopts]; rfl
  have hex := setup_extra h
  have x1 : o1.extra.drscale = o.extra.drscale := by rw [hex]
  have x2 : o1.extra.RDR = o.extra.RDR := by rw [hex]
  have x3 : o1.extra.qcovAdjust = o.extra.qcovAdjust := by rw [hex]
  have x4 : o1.extra.burninScale = o.extra.burninScale := by rw [hex]
  refine ⟨⟨hx.lapack, hx.draws, ?_, ?_, ?_, ?_⟩, ⟨⟨t, ?_⟩, ?_, ?_⟩⟩
  · change ∃ ε, o1.extra.qcovAdjust = _
    rw [x3]; exact hx.adjust
  · change ∃ b, o1.extra.burninScale = _ ∧ _
    rw [x4]; exact hx.burnin
  · change ∃ ds : List ℝ, o1.extra.drscale = _ ∧ _
    rw [x1]; exact hx.drscale
  · change I.opts.doram = false
    rw [e2]; exact hx.noRam
  · rw [hst.oldSet]; exact ht
  · have hz : ∀ (k : ℕ) (v : Vec XR (nS flags)), v ∈ zeroRows k → FinRow v := fun k v hv => by
      refine ⟨fun _ => 0, ?_⟩
      rw [(List.mem_replicate.1 hv).2]
      funext i
      simp [finVec]
    cases up with
    | false =>
      rw [(setup_fresh h).2.2.2.1]
      exact mem_set_fin (hz _) ⟨t, ht⟩ _
    | true =>
      rw [(setup_continue h).2.2.2.1]
      intro v hv
      rcases List.mem_append.1 hv with hv | hv
      · exact hch rfl v hv
      · exact hz _ v hv
  · rw [hst.cov]
    have hcov := initializeSimulation_cov hin
    obtain ⟨hsc, ⟨R, hR, hRdr⟩, c1, c2, c3, c4, _⟩ := initCovState_ok hcov
    have hsym : Q.IsSymm := by
      have := hpd.isHermitian
      rwa [Matrix.IsHermitian, conjTranspose_eq_transpose_of_trivial] at this
    have hR2 := hR
    rw [hQ] at hR2
    obtain ⟨r, rfl, hr⟩ := setupRMatrix_exact hx.lapack (parindOf_injective flags) hpd hR2
    have hru : IsUnit r := isUnit_of_gram hr hpd.isUnit
    obtain ⟨ds, hds, hd0⟩ := hx.drscale
    refine ⟨?_, ?_, ?_, ⟨Q, hQ, hsym⟩, ?_⟩
    · split at hRdr
      · obtain ⟨l, il, g1, g2, g3⟩ := hRdr
        cases hRD : o.extra.RDR with
        | none =>
          rw [x2, hRD] at g1
          unfold setupRDRMatrix at g1
          dsimp only at g1
          obtain ⟨iR, _, g1⟩ := bind_ok.1 g1
          obtain ⟨⟨l', il'⟩, _, g1⟩ := bind_ok.1 g1
          have := congrArg (fun x => x.1) (Except.ok.inj g1)
          exact ⟨r, this.symm, hru⟩
        | some l0 =>
          rw [x2, hRD] at g1
          unfold setupRDRMatrix at g1
          dsimp only at g1
          obtain ⟨inv, _, g1⟩ := bind_ok.1 g1
          obtain ⟨R0, hR0, g1⟩ := bind_ok.1 g1
          have := congrArg (fun x => x.1) (Except.ok.inj g1)
          dsimp only at this
          rw [← this]
          exact hx.RDR l0 hRD R0 (List.mem_of_getElem? (pyGet_ok.1 hR0))
      · exact ⟨r, hRdr.1, hru⟩
    · intro hnt l hl
      have hm := (hdr (by rw [← e1]; omega)).method
      rw [if_pos (by rw [e5]; exact hm.symm)] at hRdr
      obtain ⟨l', il, g1, g2, g3⟩ := hRdr
      cases hRD : o.extra.RDR with
      | none =>
        rw [x2, hRD, x1, hds] at g1
        exact (stageFactors_setup hx.lapack hd0 (by omega) g1 g2 g3).2.finite l hl
      | some l0 =>
        rw [x2, hRD] at g1
        unfold setupRDRMatrix at g1
        dsimp only at g1
        obtain ⟨inv, _, g1⟩ := bind_ok.1 g1
        obtain ⟨R0, hR0, g1⟩ := bind_ok.1 g1
        have := congrArg (fun x => x.2.1) (Except.ok.inj g1)
        dsimp only at this
        rw [hl] at g2
        cases g2
        rw [← this]
        intro M hM
        obtain ⟨A, hA, _⟩ := hx.RDR l0 hRD M hM
        exact ⟨A, hA⟩
    · rw [c1, c2, c3, e6]
      rcases hx.weight with hw | ⟨w, hw, hw1⟩
      · rw [hw]; exact .inl rfl
      · rw [hw]
        refine .inr ⟨Q, t, w, ?_, ?_, rfl, hw1, hsym⟩
        · rw [hQ]; rfl
        · rw [ht]; rfl
    · obtain ⟨s, hs⟩ := hx.scale
      rw [e7] at hsc
      obtain ⟨f1, f2⟩ := checkAdascale_fin hs hsc
      exact ⟨s, f1, f2⟩

/-- a run in exact arithmetic returns results -/
theorem exact_run_returns {U : UserFuns XR N (nS flags) m} {G : Rng σ XR} {L : Lapack XR}
    {fuel : ℕ} {o o1 : Obj XR flags m} {rng : σ} {up : Bool} {I : Init XR σ flags m}
    {s0 : SimState XR σ N (nS flags) m}
    (hx : ExactInputs G L o) (h : setupSimulator U L o rng up = .ok (o1, I, s0))
    (hrd : up = true → Ready o)
    (hch : up = true → ∀ row ∈ o.chains.chain, ∃ r, row = finVec r)
    (hns : 1 < o.opts.nsimu) (hn : 0 < nS flags) (hsos : Computes U.style1 U.sosFun)
    (hdr : 1 < o.opts.ntry → SupportsDR o.opts o.extra.drscale) (hobs : o.data.n ≠ [])
    {t : Fin (nS flags) → ℝ} (ht : I.initialSet.theta = finVec t)
    {Q : Matrix (Fin (nS flags)) (Fin (nS flags)) ℝ} (hQ : I.cov.qcov = finMx Q) (hpd : Q.PosDef) :
    (∃ out, runSimulation U G L fuel o rng up = .ok out ∧
      (∀ row ∈ out.results.chain, ∃ r, row = finVec r) ∧
      ∀ r ∈ out.final.adaptLog, ∃ R, r.after.R = finMx R ∧ IsUnit R) ∨
    (runSimulation U G L fuel o rng up = .error .outOfFuel ∧ I.opts.updatesigma = true ∧
      RunsOut G fuel I.errModel.N0 I.errModel.N) := by
  obtain ⟨hg, hf⟩ := start_fit (G := G) (fuel := fuel) h hrd hn hsos hdr hobs
  obtain ⟨hE, hI⟩ := start_fin (fuel := fuel) hx h hch hdr ht hQ hpd
  have hst := (setup_start h).1
  have e0 : I.opts.nsimu = o.opts.nsimu := by rw [hst.init.opts, hst.opts]; rfl
  have hsafe := safe_executeSimulator_fin hE hg hI hf (show 1 < I.opts.nsimu.toNat by rw [e0]; omega)
  cases hs : executeSimulator (⟨I.problem, G, L, runOpts I.opts o1.extra, fuel⟩ :
      Env XR σ N (nS flags) m) s0 with
  | error e =>
    right
    have hrun : runSimulation U G L fuel o rng up = .error e := by
      unfold runSimulation
      rw [h, ok_bind]
      dsimp only
      rw [hs]
      rfl
    obtain ⟨rfl, h1⟩ := hsafe e hs
    refine ⟨hrun, h1, ?_⟩
    rcases run_returns (G := G) (fuel := fuel) h hrd hns hn hsos hdr hobs with ⟨_, h2⟩ | ⟨h2, _⟩ | ⟨_, _, h2⟩
    · rw [h2] at hrun; cases hrun
    · rw [h2] at hrun; cases hrun
    · exact h2
  | ok s =>
    left
    obtain ⟨out, hout, rfl, rfl, hch'⟩ := run_of_loop h hrd hn hsos hdr hobs hs
    obtain ⟨_, s1, ⟨hF, hA⟩, hfin⟩ := executeSimulator_inv
      (P := fun i s => FinInv out.init.opts.ntry.toNat s ∧
        ∀ r ∈ s.adaptLog, ∃ R, r.after.R = finMx R ∧ IsUnit R)
      ⟨⟨hI.old, hI.rows, hI.cov⟩, by simp [loopStart, hst.adaptLog]⟩
      (fun i a b p hi _ hP hp => by
        have hn' := hP.1.step hE hn hp
        refine ⟨hn', fun r hr => ?_⟩
        rw [hp.adaptLog, List.mem_append] at hr
        rcases hr with hr | hr
        · exact hP.2 r hr
        · split at hr
          · rw [List.mem_singleton] at hr
            rw [hr]
            exact hn'.cov.R
          · simp at hr) hs
    refine ⟨out, hout, ?_, ?_⟩
    · rw [hch', hfin]; exact hF.rows
    · rw [hfin]; exact hA

/-- **C65.** In exact arithmetic a run from scratch of at least two rows that has been set up with a
finite initial point and a positive definite initial covariance returns results, with or without
delayed rejection, adaptation and burn-in: no adaptation ever produces a factor that cannot be
inverted.  Moreover all rows of the chain are finite and the factor after every adaptation is
finite and invertible.  The only exception, as in `C64`: with error-variance sampling the rejection
loop of the gamma generator may go on for longer than the bound `fuel` of the model. -/
theorem C65_exact_run_returns {U : UserFuns XR N (nS flags) m} {G : Rng σ XR} {L : Lapack XR}
    {fuel : ℕ} {o o1 : Obj XR flags m} {rng : σ} {I : Init XR σ flags m}
    {s0 : SimState XR σ N (nS flags) m}
    (hx : ExactInputs G L o) (h : setupSimulator U L o rng false = .ok (o1, I, s0))
    (hns : 1 < o.opts.nsimu) (hn : 0 < nS flags) (hsos : Computes U.style1 U.sosFun)
    (hdr : 1 < o.opts.ntry → SupportsDR o.opts o.extra.drscale) (hobs : o.data.n ≠ [])
    {t : Fin (nS flags) → ℝ} (ht : I.initialSet.theta = finVec t)
    {Q : Matrix (Fin (nS flags)) (Fin (nS flags)) ℝ} (hQ : I.cov.qcov = finMx Q) (hpd : Q.PosDef) :
    (∃ out, runSimulation U G L fuel o rng false = .ok out ∧
      (∀ row ∈ out.results.chain, ∃ r, row = finVec r) ∧
      ∀ r ∈ out.final.adaptLog, ∃ R, r.after.R = finMx R ∧ IsUnit R) ∨
    (runSimulation U G L fuel o rng false = .error .outOfFuel ∧ I.opts.updatesigma = true ∧
      RunsOut G fuel I.errModel.N0 I.errModel.N) :=
  exact_run_returns hx h nofun nofun hns hn hsos hdr hobs ht hQ hpd

/-- **C65**, for a continuation of an object with any history of runs whose chain is finite. -/
theorem C65_continued_run_returns {U : UserFuns XR N (nS flags) m} {G : Rng σ XR} {L : Lapack XR}
    {fuel : ℕ} {o0 o o1 : Obj XR flags m} {rng : σ} {I : Init XR σ flags m}
    {s0 : SimState XR σ N (nS flags) m}
    (hx : ExactInputs G L o) (h : setupSimulator U L o rng true = .ok (o1, I, s0))
    (h0 : o0.results = none) (hre : Reachable U o0 o)
    (hch : ∀ row ∈ o.chains.chain, ∃ r, row = finVec r)
    (hns : 1 < o.opts.nsimu) (hn : 0 < nS flags) (hsos : Computes U.style1 U.sosFun)
    (hdr : 1 < o.opts.ntry → SupportsDR o.opts o.extra.drscale) (hobs : o.data.n ≠ [])
    {t : Fin (nS flags) → ℝ} (ht : I.initialSet.theta = finVec t)
    {Q : Matrix (Fin (nS flags)) (Fin (nS flags)) ℝ} (hQ : I.cov.qcov = finMx Q) (hpd : Q.PosDef) :
    (∃ out, runSimulation U G L fuel o rng true = .ok out ∧
      (∀ row ∈ out.results.chain, ∃ r, row = finVec r) ∧
      ∀ r ∈ out.final.adaptLog, ∃ R, r.after.R = finMx R ∧ IsUnit R) ∨
    (runSimulation U G L fuel o rng true = .error .outOfFuel ∧ I.opts.updatesigma = true ∧
      RunsOut G fuel I.errModel.N0 I.errModel.N) := by
  obtain ⟨_, _, _, _, _, _, _, _, ⟨res, hres, _⟩, _⟩ := setup_continue h
  exact exact_run_returns hx h (fun _ => reachable_ready h0 hre (by rw [hres]; rfl)) (fun _ => hch)
    hns hn hsos hdr hobs ht hQ hpd

/-! ### C17 -/

/-- **C17**, start of a run: with method `dr` or `dram` and no user-supplied factors there are, for each
of the `ntry` stages, a factor and an inverse; the factor of stage `k` is the first-stage factor
divided by the product of the first `k` scale entries, and the two are inverse to each other. -/
theorem C17_start {U : UserFuns XR N (nS flags) m} {L : Lapack XR} (hL : ExactLapack L)
    {o o1 : Obj XR flags m} {rng : σ} {I : Init XR σ flags m} {s0 : SimState XR σ N (nS flags) m}
    {up : Bool} (h : setupSimulator U L o rng up = .ok (o1, I, s0)) (hR : o.extra.RDR = none)
    (hm : o.opts.method = .dr ∨ o.opts.method = .dram) (hnt : 0 < o.opts.ntry)
    {ds : List ℝ} (hds : o.extra.drscale = ds.map .fin) (h0 : ∀ d ∈ ds, d ≠ 0)
    {R : Matrix (Fin (nS flags)) (Fin (nS flags)) ℝ} (hR0 : I.cov.R = finMx R) :
    StageFactors ds o.opts.ntry.toNat R I.cov := by
  have hst := (setup_start h).1
  have e1 : I.opts.ntry = o.opts.ntry := by rw [hst.init.opts, hst.opts]; rfl
  have e5 : I.opts.method = o.opts.method := by rw [hst.init.opts, hst.opts]; rfl
  have hex := setup_extra h
  have x1 : o1.extra.drscale = o.extra.drscale := by rw [hex]
  have x2 : o1.extra.RDR = o.extra.RDR := by rw [hex]
  obtain ⟨_, ⟨R', _, h2⟩, _⟩ := initCovState_ok (initializeSimulation_cov (setupSimulator_init h))
  rw [if_pos (by rw [e5]; exact hm.symm)] at h2
  obtain ⟨l, il, g1, g2, g3⟩ := h2
  rw [x2, hR, x1, hds, e1] at g1
  have hRR : R' = finMx R := by
    rw [← hR0]
    unfold setupRDRMatrix at g1
    dsimp only at g1
    obtain ⟨iR, _, g1⟩ := bind_ok.1 g1
    obtain ⟨⟨l', il'⟩, _, g1⟩ := bind_ok.1 g1
    exact congrArg (fun x => x.1) (Except.ok.inj g1)
  rw [hRR] at g1
  exact (stageFactors_setup hL h0 (by omega) g1 g2 g3).2

/-- **C17**, adaptation: the same holds after every adaptation past the burn-in, with the adapted
first-stage factor. -/
theorem C17_adapted {U : UserFuns XR N (nS flags) m} {G : Rng σ XR} {L : Lapack XR}
    (hL : ExactLapack L) {fuel : ℕ} {o : Obj XR flags m} {rng : σ} {up : Bool}
    {out : RunOut XR σ flags m} (h : runSimulation U G L fuel o rng up = .ok out)
    (hnt : 1 < o.opts.ntry) {ds : List ℝ} (hds : o.extra.drscale = ds.map .fin)
    (h0 : ∀ d ∈ ds, d ≠ 0) {r : AdaptRecord XR (nS flags)} (hr : r ∈ out.final.adaptLog)
    (hb : o.opts.burnintime ≤ r.at_) {R : Matrix (Fin (nS flags)) (Fin (nS flags)) ℝ}
    (hR : r.after.R = finMx R) :
    StageFactors ds o.opts.ntry.toNat R r.after := by
  obtain ⟨seg, hs⟩ := (run_adapt h r hr).spec hb
  obtain ⟨o1, I, s0, hst, hI, _⟩ := run_cov h
  have e1 : I.opts.ntry = o.opts.ntry := by rw [hst.init.opts, hst.opts]; rfl
  have hdr := hs.dr
  rw [hR] at hdr
  have hdr : updateDelayedRejection L (finMx R) out.init.opts.ntry.toNat o.extra.drscale = _ := hdr
  rw [hI, e1, hds] at hdr
  exact stageFactors_update hL h0 (by omega) hdr

/-- **C17**, whole run: with the inputs of `C65` no assumption on the adapted factors is needed. -/
theorem C17_run {U : UserFuns XR N (nS flags) m} {G : Rng σ XR} {L : Lapack XR}
    {fuel : ℕ} {o : Obj XR flags m} {rng : σ} {out : RunOut XR σ flags m}
    (hx : ExactInputs G L o) (h : runSimulation U G L fuel o rng false = .ok out)
    (hn : 0 < nS flags) (hsos : Computes U.style1 U.sosFun) (hns : 1 < o.opts.nsimu)
    (hnt : 1 < o.opts.ntry) (hdr : SupportsDR o.opts o.extra.drscale) (hobs : o.data.n ≠ [])
    {ds : List ℝ} (hds : o.extra.drscale = ds.map .fin)
    {t : Fin (nS flags) → ℝ} (ht : out.init.initialSet.theta = finVec t)
    {Q : Matrix (Fin (nS flags)) (Fin (nS flags)) ℝ} (hQ : out.init.cov.qcov = finMx Q)
    (hpd : Q.PosDef) :
    ∀ r ∈ out.final.adaptLog, o.opts.burnintime ≤ r.at_ →
      ∃ R, r.after.R = finMx R ∧ IsUnit R ∧ StageFactors ds o.opts.ntry.toNat R r.after := by
  obtain ⟨o1, I, s0, hst, rfl, _, h1, _⟩ := run_cov h
  have h0 : ∀ d ∈ ds, d ≠ 0 := by
    obtain ⟨ds', h2, h3⟩ := hx.drscale
    rw [hds] at h2
    rwa [List.map_injective_iff.2 XR.fin_injective h2]
  rcases C65_exact_run_returns (fuel := fuel) hx h1 hns hn hsos (fun _ => hdr) hobs ht hQ hpd with
    ⟨out', h4, _, h5⟩ | ⟨h4, _⟩
  · rw [h] at h4
    cases h4
    intro r hr hb
    obtain ⟨R, e1, e2⟩ := h5 r hr
    exact ⟨R, e1, e2, C17_adapted hx.lapack h hnt hds h0 hr hb e1⟩
  · rw [h] at h4; cases h4

/-! ### Examples -/

/-- the adaptation records are those of the schedule -/
theorem adaptLog_at {F : Type} [PyFloat F] {U : UserFuns F N (nS flags) m} {G : Rng σ F} {L : Lapack F}
    {fuel : ℕ} {o : Obj F flags m} {rng : σ} {up : Bool} {out : RunOut F σ flags m}
    (h : runSimulation U G L fuel o rng up = .ok out) :
    out.final.adaptLog.map (·.at_) = out.final.adaptedAt := by
  obtain ⟨o1, I, s0, hst, rfl, _, _, h2, _⟩ := run_cov h
  obtain ⟨_, s1, hI, hfin⟩ := executeSimulator_inv
    (P := fun i s => s.adaptLog.map (·.at_) = s.adaptedAt)
    (by simp [loopStart, hst.adaptLog, hst.adaptedAt])
    (fun i a b p hi _ hP hp => by
      rw [hp.adaptLog, hp.adaptedAt, List.map_append, hP]
      congr 1
      split <;> rfl) h2
  rw [hfin]
  exact hI

namespace XRun

/-- delayed rejection with adaptation, three rows, one adaptation -/
noncomputable def dramArgs : OptArgs XR := { nsimu := 3, adaptint := some 2 }

theorem setupR {v : ℝ} {R q : Mat XR (nS XRun.flags)}
    (h : setupRMatrix exactLapack (.variances 1 fun _ => .fin v) (parindOf XRun.flags) = .ok (R, q)) :
    q = finMx (diagonal fun _ => v) := by
  change (ixRestrict _ _ >>= fun _ => _) = _ at h
  unfold ixRestrict at h
  rw [dif_pos fun i => (parindOf XRun.flags i).2, ok_bind] at h
  have := congrArg Prod.snd (Except.ok.inj h)
  dsimp only at this
  rw [← this]
  funext i j
  have hij : ∀ a b : Fin 1, a = b := fun a b => Subsingleton.elim a b
  have hij' : ∀ a b : Fin (nS XRun.flags), a = b := by rw [nS_flags]; exact hij
  rw [hij' i j]
  simp [diagflat, finMx, finMat, hij _ (0 : Fin 1)]

theorem dram_setup : ∃ o1 I s0, setupSimulator user exactLapack (obj dramArgs) () false = .ok (o1, I, s0) ∧
    I.initialSet.theta = finVec (fun _ => 0) ∧ I.cov.qcov = finMx 1 ∧
    ∃ R, I.cov.R = finMx R ∧ Rᵀ * R = 1 := by
  have hpd : (diagonal fun _ : Fin (nS XRun.flags) => (1 : ℝ)).PosDef := .diagonal fun _ => one_pos
  obtain ⟨⟨o1, I, s0⟩, h⟩ := setup_ok' exactLapack dramArgs (by decide) rfl true 1 1 (by
    intro _ R q hR
    obtain rfl := setupR hR
    obtain ⟨r, rfl, hr⟩ := setupRMatrix_exact exactLapack_ok (parindOf_injective XRun.flags) hpd hR
    have hu : IsUnit r := isUnit_of_gram hr hpd.isUnit
    have hu5 : IsUnit ((5 : ℝ)⁻¹ • r) := by
      rw [Matrix.isUnit_iff_isUnit_det, det_smul]
      exact (isUnit_iff_ne_zero.2 (pow_ne_zero _ (by norm_num))).mul
        ((Matrix.isUnit_iff_isUnit_det _).1 hu)
    obtain ⟨b, hb, _⟩ := exactLapack_ok.inv_some _ hu
    obtain ⟨b', hb', _⟩ := exactLapack_ok.inv_some _ hu5
    have e5 : (lit 1 : XR) / .fin 5 = .fin (5 : ℝ)⁻¹ := by
      rw [XR.lit_eq, XR.fin_div (by norm_num)]; simp
    have e : setupRDRMatrix exactLapack (finMx r) 2 [.fin 5] none =
        .ok (finMx r, [finMx r, finMx ((5 : ℝ)⁻¹ • r)], [finMx b, finMx b']) := by
      unfold setupRDRMatrix
      dsimp only
      rw [hb]
      unfold rdrSetupLoop
      change (do
        let __discr ← (do
          let s ← (Except.ok (XR.fin 5) : Except PyErr XR)
          _ : Except PyErr (List (Mat XR (nS XRun.flags)) × List (Mat XR (nS XRun.flags))))
        _) = _
      rw [ok_bind, e5, matScale_fin]
      dsimp only
      rw [hb']
      rfl
    change Safe _ (setupRDRMatrix exactLapack (finMx r) 2 [.fin 5] none)
    rw [e]
    exact .ok _)
  have hst := (setup_fresh h).1
  obtain rfl := (setup_fresh h).2.2.2.2.2.2.2.1 rfl
  have hcov := initializeSimulation_cov (setupSimulator_init h)
  obtain ⟨_, ⟨R, hR, _⟩, _⟩ := initCovState_ok hcov
  have hq : I.cov.qcov = finMx 1 := by rw [setupR hR, Matrix.diagonal_one]
  refine ⟨_, I, s0, h, ?_, hq, initial_factor exactLapack_ok h rfl hq PosDef.one⟩
  rw [hst.init.theta]; rfl

theorem dram_inputs : ExactInputs rng exactLapack (obj dramArgs) where
  lapack := exactLapack_ok
  draws _ := ⟨fun _ => 1, rfl⟩
  adjust := ⟨1, rfl⟩
  burnin := ⟨10, rfl, by norm_num⟩
  drscale := ⟨[5], rfl, by simp⟩
  noRam := rfl
  weight := .inl rfl
  scale := ⟨_, .inl ⟨rfl, rfl⟩⟩
  RDR := nofun

theorem dram_supports : SupportsDR (obj dramArgs).opts (obj dramArgs).extra.drscale :=
  ⟨.inr rfl, rfl, fun _ => ⟨by change (0 : ℤ) ≤ 2; decide, by change [XR.fin 5] ≠ []; simp⟩⟩

/-- `C65` applies to the run of the example -/
theorem dram_run : ∃ out, runSimulation user rng exactLapack 0 (obj dramArgs) () false = .ok out := by
  obtain ⟨o1, I, s0, h, ht, hq, _⟩ := dram_setup
  rcases C65_exact_run_returns (fuel := 0) dram_inputs h (by change (1 : ℤ) < 3; decide) (by decide)
    (fun v => by simp [user]) (fun _ => dram_supports) (show data.n ≠ [] by decide) ht hq PosDef.one with
    ⟨out, h, _⟩ | ⟨_, h2, _⟩
  · exact ⟨out, h⟩
  · have hst := (setup_fresh h).1
    rw [hst.init.opts, hst.opts, hst.ms] at h2
    have h2 : false = true := h2
    cases h2

end XRun

/-- the hypotheses of `C65_exact_run_returns` can be met, with delayed rejection and adaptation -/
example : ∃ o1 I s0, ExactInputs XRun.rng exactLapack (XRun.obj XRun.dramArgs) ∧
    setupSimulator XRun.user exactLapack (XRun.obj XRun.dramArgs) () false = .ok (o1, I, s0) ∧
    1 < (XRun.obj XRun.dramArgs).opts.nsimu ∧ 1 < (XRun.obj XRun.dramArgs).opts.ntry ∧
    0 < nS XRun.flags ∧ Computes XRun.user.style1 XRun.user.sosFun ∧
    SupportsDR (XRun.obj XRun.dramArgs).opts (XRun.obj XRun.dramArgs).extra.drscale ∧
    (XRun.obj XRun.dramArgs).data.n ≠ [] ∧
    I.initialSet.theta = finVec (fun _ => 0) ∧ I.cov.qcov = finMx 1 := by
  obtain ⟨o1, I, s0, h, ht, hq, _⟩ := XRun.dram_setup
  exact ⟨o1, I, s0, XRun.dram_inputs, h, (show (1 : ℤ) < 3 by decide), (show (1 : ℤ) < 2 by decide),
    by decide, fun v => by simp [XRun.user], XRun.dram_supports, show XRun.data.n ≠ [] by decide, ht, hq⟩

/-- the hypotheses of `C17_start` and `C21_given_covariance`'s companion `initial_factor` can be met -/
example : ∃ o1 I s0 R,
    setupSimulator XRun.user exactLapack (XRun.obj XRun.dramArgs) () false = .ok (o1, I, s0) ∧
    (XRun.obj XRun.dramArgs).extra.RDR = none ∧ (XRun.obj XRun.dramArgs).opts.method = .dram ∧
    0 < (XRun.obj XRun.dramArgs).opts.ntry ∧
    (XRun.obj XRun.dramArgs).extra.drscale = [(5 : ℝ)].map .fin ∧ I.cov.R = finMx R := by
  obtain ⟨o1, I, s0, h, _, _, R, hR, _⟩ := XRun.dram_setup
  exact ⟨o1, I, s0, R, h, rfl, rfl, (show (0 : ℤ) < 2 by decide), rfl, hR⟩

/-- the hypotheses of `C17_adapted` and `C17_run` can be met -/
example : ∃ out, runSimulation XRun.user XRun.rng exactLapack 0 (XRun.obj XRun.dramArgs) () false = .ok out ∧
    1 < (XRun.obj XRun.dramArgs).opts.ntry ∧
    ∃ r ∈ out.final.adaptLog, (XRun.obj XRun.dramArgs).opts.burnintime ≤ r.at_ ∧
    ∃ R : Matrix _ _ ℝ, r.after.R = finMx R ∧ IsUnit R ∧
      StageFactors [5] 2 R r.after := by
  obtain ⟨out, h⟩ := XRun.dram_run
  obtain ⟨o1, I, s0, h1, ht, hq, _⟩ := XRun.dram_setup
  obtain ⟨o1', I', s0', _, rfl, _, h1', _⟩ := run_cov h
  rw [h1] at h1'
  cases h1'
  have h5 : 2 ∈ out.final.adaptedAt :=
    (((C14_adaptation_schedule_partial h).1 (show (0 : ℤ) < 2 by decide)).2 2).2
      ⟨by decide, show (2 : ℤ) < 3 by decide, show (2 : ℤ) ∣ 2 by decide⟩
  rw [← adaptLog_at h, List.mem_map] at h5
  obtain ⟨r, hr, _⟩ := h5
  exact ⟨out, h, (show (1 : ℤ) < 2 by decide), r, hr, (show (0 : ℤ) ≤ _ by positivity),
    C17_run XRun.dram_inputs h (by decide) (fun v => by simp [XRun.user])
      (show (1 : ℤ) < 3 by decide) (show (1 : ℤ) < 2 by decide) XRun.dram_supports
      (show XRun.data.n ≠ [] by decide) rfl ht hq PosDef.one r hr (show (0 : ℤ) ≤ _ by positivity)⟩

/-- the hypotheses of `C21_default_factor` can be met -/
example : ∃ o1 I s0, setupSimulator XRun.user exactLapack
      (XRun.objq (XRun.args) true 1 1 none) () false = .ok (o1, I, s0) ∧
    (XRun.objq (XRun.args) true 1 1 none).extra.RDR = none ∧
    o1.extra.qcov = none ∧ ∀ k, (o1.specs k).theta0 = .fin ((fun _ => 0 : Fin 1 → ℝ) k) := by
  obtain ⟨⟨o1, I, s0⟩, h⟩ := XRun.setup_okq exactLapack XRun.args (by decide) rfl true 1 1 none (.inl rfl)
    (by simp [XRun.args])
  obtain rfl := (setup_fresh h).2.2.2.2.2.2.2.1 rfl
  exact ⟨_, I, s0, h, rfl, rfl, fun _ => rfl⟩

/-- the hypotheses of `C21_given_covariance` can be met -/
example : ∃ o1 I s0, setupSimulator XRun.user exactLapack
      (XRun.objq (XRun.args) true 1 1 (some (.matrix 1 (finMx 1)))) () false = .ok (o1, I, s0) ∧
    (XRun.objq (XRun.args) true 1 1 (some (.matrix 1 (finMx 1)))).extra.RDR = none ∧
    o1.extra.qcov = some (.matrix 1 (finMx 1)) ∧
    ((1 : Matrix (Fin 1) (Fin 1) ℝ).submatrix (parindOf XRun.flags) (parindOf XRun.flags)).PosDef := by
  obtain ⟨⟨o1, I, s0⟩, h⟩ := XRun.setup_okq exactLapack XRun.args (by decide) rfl true 1 1
    (some (.matrix 1 (finMx 1))) (.inr (.inr ⟨_, rfl⟩)) (by simp [XRun.args])
  obtain rfl := (setup_fresh h).2.2.2.2.2.2.2.1 rfl
  refine ⟨_, I, s0, h, rfl, rfl, ?_⟩
  rw [Matrix.submatrix_one _ (parindOf_injective _)]
  exact PosDef.one

end Verif
