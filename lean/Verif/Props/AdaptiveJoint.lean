import Verif.Lemmas.JointFactor
import Verif.Props.AdaptiveChain
import Verif.Props.JointInvariance

/-! # C131: every iteration of an adaptive run with sampled error variances keeps the joint posterior -/

set_option linter.unusedSectionVars false

namespace Verif
open XR MeasureTheory Function ProbabilityTheory
open scoped ENNReal

/-- An adaptation is made exactly in the iterations divisible by the interval. -/
theorem adaptNow_iff {F σ : Type} [PyFloat F] {N n m : ℕ} {E : Env F σ N n m} {s : SimState F σ N n m} {i : ℕ}
    (hi : 1 ≤ i) (h : 0 < E.opts.adaptint → (s.iiadapt : ℤ) = ((i - 1 : ℕ) : ℤ) % E.opts.adaptint) :
    adaptNow E s ↔ 0 < E.opts.adaptint ∧ E.opts.adaptint ∣ (i : ℤ) := by
  by_cases hk : 0 < E.opts.adaptint
  swap
  · exact ⟨fun h => absurd h.1 hk, fun h => absurd h.1 hk⟩
  have e := h hk
  have hi' : ((i : ℕ) : ℤ) = ((i - 1 : ℕ) : ℤ) + 1 := by omega
  have hdm := Int.emod_add_mul_ediv ((i - 1 : ℕ) : ℤ) E.opts.adaptint
  have hlt := Int.emod_lt_of_pos ((i - 1 : ℕ) : ℤ) hk
  have hnn := Int.emod_nonneg ((i - 1 : ℕ) : ℤ) (by omega : E.opts.adaptint ≠ 0)
  have hii : (i : ℤ) = (s.iiadapt + 1) + E.opts.adaptint * (((i - 1 : ℕ) : ℤ) / E.opts.adaptint) := by omega
  unfold adaptNow
  push_cast
  constructor
  · rintro ⟨_, hc⟩
    refine ⟨hk, ?_⟩
    rw [hii, hc]
    exact (dvd_refl _).add (dvd_mul_right _ _)
  · rintro ⟨_, hd⟩
    refine ⟨hk, ?_⟩
    rw [hii] at hd
    have hd' : E.opts.adaptint ∣ (s.iiadapt : ℤ) + 1 := (Int.dvd_add_left (dvd_mul_right _ _)).1 hd
    have := Int.le_of_dvd (by omega) hd'
    omega

section loop
variable {σ : Type} [MeasurableSpace σ] {μ : Measure σ} {N n m : ℕ}

/-- the factor of the next iteration, from the history of values, variances and factors -/
noncomputable def nextJoint {L : Lapack XR} (hL : TriangularFactor L n) (adaptint : ℤ) (noAdapt : Fin n → Bool)
    (Q : Matrix (Fin n) (Fin n) ℝ) (ε sc : ℝ) (j : ℕ)
    (h : ℕ → ((Fin n → ℝ) × (Fin m → ℝ)) × (Fin n → Fin n → ℝ)) : Fin n → Fin n → ℝ :=
  nextFactor hL adaptint noAdapt Q ε sc j fun i => ((h i).1.1, (h i).2)

theorem measurable_nextJoint {L : Lapack XR} (hL : TriangularFactor L n) (adaptint : ℤ) (noAdapt : Fin n → Bool)
    (Q : Matrix (Fin n) (Fin n) ℝ) (ε sc : ℝ) (j : ℕ) :
    Measurable (nextJoint (m := m) hL adaptint noAdapt Q ε sc j) := by
  refine (measurable_nextFactor hL adaptint noAdapt Q ε sc j).comp (measurable_pi_iff.2 fun i => ?_)
  exact (measurable_fst.comp (measurable_fst.comp (measurable_pi_apply i))).prodMk
    (measurable_snd.comp (measurable_pi_apply i))

variable {E : Env XR σ N n m} {fixed : Vec XR N} {q : (Fin n → ℝ) → Fin m → ℝ}
  {r : (Fin n → ℝ) → ℝ} {N0 S20 : Fin m → ℝ} {NX : List XR} {lp : (Fin m → ℝ) → (Fin n → ℝ) → Option ℝ}

/-- the values of the user's functions and of the log posterior -/
structure JointBase (E : Env XR σ N n m) (fixed : Vec XR N) (q : (Fin n → ℝ) → Fin m → ℝ)
    (r : (Fin n → ℝ) → ℝ) (lp : (Fin m → ℝ) → (Fin n → ℝ) → Option ℝ) : Prop where
  npos : 0 < m
  sos : ∀ θ ss, SosOf E.problem fixed (finVec θ) ss → ss = finVec (q θ)
  prior : ∀ θ, E.problem.prior (finVec θ) = .fin (r θ)
  lpOut : ∀ v θ, ¬ InsideOf E.problem (finVec θ) → lp v θ = none
  lpIn : ∀ v θ, InsideOf E.problem (finVec θ) → lp v θ = some (-(1 / 2) * ∑ i, q θ i / v i - 1 / 2 * r θ)

theorem JointBase.env (H : JointBase E fixed q r lp) {cov : CovState XR n} {ds : List ℝ} {ntry : ℤ}
    (hnt : E.opts.ntry = ntry.toNat) {R : Fin n → Fin n → ℝ} (hR : cov.R = finMx (Matrix.of R))
    (hS : 1 < ntry → StageFactors ds ntry.toNat (Matrix.of R) cov) :
    JointEnv E fixed cov q r lp (fun k => Matrix.of (stageFactor ds ntry R k)) (stageInverse ds ntry R) := by
  have hA : ∀ k, Matrix.of (stageFactor ds ntry R k) =
      (if 1 < ntry then (stageScale ds k)⁻¹ else 1) • Matrix.of R := of_stageFactor ds ntry (Matrix.of R)
  refine ⟨H.npos, H.sos, H.prior, H.lpOut, H.lpIn, ?_, fun h1 => ?_⟩
  · rw [hR, hA]
    split <;> simp [stageScale]
  · have h1' : 1 < ntry := by omega
    obtain ⟨l, il, e1, e2, e3, e4, e5⟩ := hS h1'
    refine ⟨l, il, e1, e2, e3.trans hnt.symm, fun k hk => ?_⟩
    obtain ⟨b, b1, b2, b3⟩ := e5 k (by omega)
    have hAk : Matrix.of (stageFactor ds ntry R k) = (stageScale ds k)⁻¹ • Matrix.of R := by rw [hA, if_pos h1']
    refine ⟨by rw [hAk]; exact b1, ?_⟩
    rw [b2]
    congr 2
    change b = (Matrix.of (stageFactor ds ntry R k))⁻¹
    rw [hAk]
    exact (Matrix.inv_eq_right_inv b3).symm

/-- The state before iteration `i` of an adaptive run that has followed the process `Hs`. -/
structure AdaptAt (E : Env XR σ N n m) (fixed : Vec XR N) (q : (Fin n → ℝ) → Fin m → ℝ)
    (r : (Fin n → ℝ) → ℝ) (N0 S20 : Fin m → ℝ) (NX : List XR) (ds : List ℝ) (ntry : ℤ) (noAdapt : Fin n → Bool)
    (Q : Matrix (Fin n) (Fin n) ℝ) (sc : ℝ)
    (Hs : ℕ → (ℕ → ((Fin n → ℝ) × (Fin m → ℝ)) × (Fin n → Fin n → ℝ)) × σ) (i : ℕ)
    (s : SimState XR σ N n m) : Prop where
  fit : Fit E 0 i s
  fin : FinInv E.opts.ntry s
  mom : MomentInv E.opts.burnintime i s
  sched : ∃ s0, SchedInv E.opts.adaptint s0 i s
  joint : JointAt E.problem fixed s.cov q r N0 S20 NX (((Hs (i - 1)).1 (i - 1)).1, (Hs (i - 1)).2) s
  R : s.cov.R = finMx (Matrix.of ((Hs (i - 1)).1 (i - 1)).2)
  stages : 1 < ntry → StageFactors ds ntry.toNat (Matrix.of ((Hs (i - 1)).1 (i - 1)).2) s.cov
  qcov : s.cov.qcov = finMx Q
  noAdapt : s.cov.noAdapt = noAdapt
  scale : s.cov.qcovScale = .fin sc
  rows : ∃ c, s.s2chain = some c ∧ ∀ j < i, s.chain[j]? = some (finVec ((Hs j).1 j).1.1) ∧
    c[j]? = some (finVec ((Hs j).1 j).1.2)
  log : s.moveLog.length + 1 = i ∧ ∀ j rec, s.moveLog[j]? = some rec →
    rec.R = finMx (Matrix.of ((Hs j).1 j).2)

variable {ds : List ℝ} {ntry : ℤ} {noAdapt : Fin n → Bool} {Q : Matrix (Fin n) (Fin n) ℝ} {ε sc : ℝ}
  {Hs : ℕ → (ℕ → ((Fin n → ℝ) × (Fin m → ℝ)) × (Fin n → Fin n → ℝ)) × σ}

theorem AdaptAt.unit {i : ℕ} {s : SimState XR σ N n m}
    (h : AdaptAt E fixed q r N0 S20 NX ds ntry noAdapt Q sc Hs i s) :
    IsUnit (Matrix.of ((Hs (i - 1)).1 (i - 1)).2) := by
  obtain ⟨R, hR, hu⟩ := h.fin.cov.R
  rw [h.R] at hR
  rw [finMx_injective hR]
  exact hu

/-- the draws of an iteration -/
theorem AdaptAt.draws (H : JointBase E fixed q r lp) (hnt : E.opts.ntry = ntry.toNat) (D : IdealRng E.rng n μ)
    {draw : σ → (Fin m → ℝ) × σ}
    (hrate : ∀ θ, InsideOf E.problem (finVec θ) → ∀ j, 0 < N0 j * S20 j + q θ j)
    {s : SimState XR σ N n m} {z : ((Fin n → ℝ) × (Fin m → ℝ)) × σ} {R : Fin n → Fin n → ℝ}
    (hR : s.cov.R = finMx (Matrix.of R)) (hu : IsUnit (Matrix.of R))
    (hS : 1 < ntry → StageFactors ds ntry.toNat (Matrix.of R) s.cov)
    (hj : JointAt E.problem fixed s.cov q r N0 S20 NX z s)
    (hgood : DrawsFrom E N0 S20 NX draw (factorStep D lp ds ntry R z).2)
    {z' : ((Fin n → ℝ) × (Fin m → ℝ)) × σ}
    (hz : z' = varianceStep (fun θ j => (N0 j * S20 j + q θ j) / 2) draw (factorStep D lp ds ntry R z))
    {p : Proposal XR σ N n m} (hp : propose E s = .ok p) :
      updateErrorVariance E.rng E.fuel (currentSet s p).ss s.errModel p.world.rng =
        .ok (sampledModel N0 S20 NX z'.1.2, z'.2) ∧
      (currentSet s p).theta = finVec z'.1.1 ∧ (currentSet s p).ss = finVec (q z'.1.1) ∧
      (currentSet s p).prior = .fin (r z'.1.1) ∧ InsideOf E.problem (finVec z'.1.1) ∧ ∀ j, 0 < z'.1.2 j := by
  have hdet : (Matrix.of R).det ≠ 0 := ((Matrix.isUnit_iff_isUnit_det _).1 hu).ne_zero
  set y := factorStep D lp ds ntry R z with hy
  have hy' : y = moveStep D (fun k => Matrix.of (stageFactor ds ntry R k)) (stageInverse ds ntry R) lp
      (max 1 E.opts.ntry) z := by
    rw [hy, factorStep_of_unit D ds ntry hdet, hnt]
  obtain ⟨y1, y2, y3, y4, y5, y6⟩ := hj.move (H.env hnt hR hS) D hp hy'
  obtain ⟨g1, g2⟩ := hgood
  rw [hz]
  refine ⟨?_, y2, y3, y4, y5, fun j => ?_⟩
  · rw [y3, hj.errModel, y6]
    refine (g2 _ (hrate _ y5) _).trans ?_
    simp only [varianceStep, sampledModel]
    congr 3
    funext j
    simp only [finVec, div_div]
  · have := g1 j
    have := hrate _ y5 j
    simp only [varianceStep]
    positivity

/-- What the loop is run with: exact linear algebra, finite options, no adaptation in the burn-in. -/
structure AdaptEnv (E : Env XR σ N n m) (ds : List ℝ) (ntry : ℤ) (ε : ℝ) : Prop where
  good : GoodOpts E
  fin : FinEnv E
  sigma : E.opts.updatesigma = true
  ntry : E.opts.ntry = ntry.toNat
  drscale : E.opts.drscale = ds.map .fin ∧ ∀ d ∈ ds, d ≠ 0
  adjust : E.opts.qcovAdjust = .fin ε
  noBurnin : 0 < E.opts.adaptint → E.opts.burnintime ≤ E.opts.adaptint

/-- one iteration -/
theorem AdaptAt.step (V : AdaptEnv E ds ntry ε) (H : JointBase E fixed q r lp) (D : IdealRng E.rng n μ)
    (hL : TriangularFactor E.lapack n) (hQ : Q.IsSymm) {draw : σ → (Fin m → ℝ) × σ}
    (hrate : ∀ θ, InsideOf E.problem (finVec θ) → ∀ j, 0 < N0 j * S20 j + q θ j)
    (hstab : ∀ i j, i ≤ j → (Hs j).1 i = (Hs i).1 i) {i : ℕ}
    (hHs : Hs i = histStep (fun R => varianceStep (fun θ j => (N0 j * S20 j + q θ j) / 2) draw ∘
        factorStep D lp ds ntry R) (nextJoint hL E.opts.adaptint noAdapt Q ε sc) (i - 1) (Hs (i - 1)))
    {s s' : SimState XR σ N n m} {p : Proposal XR σ N n m} (hi : 1 ≤ i)
    (hgood : DrawsFrom E N0 S20 NX draw (factorStep D lp ds ntry ((Hs (i - 1)).1 (i - 1)).2
      (((Hs (i - 1)).1 (i - 1)).1, (Hs (i - 1)).2)).2)
    (h : AdaptAt E fixed q r N0 S20 NX ds ntry noAdapt Q sc Hs i s) (hp : StepSpec E i s s' p) :
    AdaptAt E fixed q r N0 S20 NX ds ntry noAdapt Q sc Hs (i + 1) s' := by
  have hz : (((Hs i).1 i).1, (Hs i).2) = varianceStep (fun θ j => (N0 j * S20 j + q θ j) / 2) draw
      (factorStep D lp ds ntry ((Hs (i - 1)).1 (i - 1)).2 (((Hs (i - 1)).1 (i - 1)).1, (Hs (i - 1)).2)) := by
    rw [hHs]
    unfold histStep
    dsimp only
    rw [Nat.sub_add_cancel hi, update_self]
    rfl
  have hnext : ((Hs i).1 i).2 = nextJoint hL E.opts.adaptint noAdapt Q ε sc (i - 1) (Hs (i - 1)).1 := by
    rw [hHs]
    unfold histStep
    dsimp only
    rw [Nat.sub_add_cancel hi, update_self]
  obtain ⟨d1, d2, d3, d4, d5, d6⟩ := AdaptAt.draws H V.ntry D hrate h.R h.unit h.stages h.joint hgood hz hp.prop
  dsimp only at d1 d2 d3 d4 d5 d6
  obtain ⟨c, hc, hrows⟩ := h.rows
  have he := hp.errModel
  rw [if_pos V.sigma] at he
  obtain ⟨c', rg, e1, e2, e3, e4, e5⟩ := he
  rw [hc] at e1
  cases e1
  rw [d1] at e4
  have e6 := Except.ok.inj e4
  rw [Prod.mk.injEq] at e6
  have hsig := hp.oldSig
  rw [if_pos V.sigma, ← e6.1] at hsig
  have hold := hp.old
  have hidx := h.fit.idx
  have hidx' : s.chainIndex + 1 = i := by omega
  have hfin' := h.fin.step V.fin V.good.npos hp
  have hmom' := h.mom.step V.good.npos hi hp
  have hchain' : ∀ j < i + 1, s'.chain[j]? = some (finVec ((Hs j).1 j).1.1) := by
    intro j hji
    rw [hp.chain, hidx']
    have hlt := hp.lt
    rw [hidx'] at hlt
    by_cases hjj : j = i
    · subst hjj
      rw [List.getElem?_set_self hlt, d2]
    · rw [List.getElem?_set_ne (by omega)]
      exact (hrows j (by omega)).1
  -- the covariance
  have hcovs : s'.cov.R = finMx (Matrix.of ((Hs i).1 i).2) ∧
      (1 < ntry → StageFactors ds ntry.toNat (Matrix.of ((Hs i).1 i).2) s'.cov) ∧
      s'.cov.qcov = finMx Q ∧ s'.cov.noAdapt = noAdapt ∧ s'.cov.qcovScale = .fin sc := by
    have hcov := hp.cov
    obtain ⟨sS, hsched⟩ := h.sched
    have hnow := adaptNow_iff (E := E) hi hsched.ii
    rw [hnext]
    unfold nextJoint nextFactor
    rw [Nat.sub_add_cancel hi]
    by_cases ha : adaptNow E s
    · rw [if_pos ha] at hcov
      rw [if_pos (hnow.1 ha)]
      rcases runAdaptation_ok hcov with ⟨hb, -⟩ | ⟨-, hA⟩
      · have h1 := V.noBurnin (hnow.1 ha).1
        have h2 := Int.le_of_dvd (by omega) (hnow.1 ha).2
        omega
      · -- the moments
        have hm := (hmom'.2.2 ((List.range (i + 1)).map fun j => ((Hs j).1 j).1.1) (by
          apply List.ext_getElem?
          intro j
          rw [List.getElem?_take, List.map_map, List.getElem?_map]
          by_cases hj : j < i + 1
          · rw [if_pos hj, hchain' j hj, List.getElem?_range hj]
            rfl
          · rw [if_neg hj, List.getElem?_eq_none (by simpa using hj)]
            rfl)).1
        have htake : ((List.range (i + 1)).map fun j => ((Hs j).1 j).1.1).take i =
            (List.range i).map fun j => ((Hs (i - 1)).1 j).1.1 := by
          rw [← List.map_take, List.take_range, min_eq_left (by omega)]
          refine List.map_congr_left fun j hj => ?_
          rw [hstab j (i - 1) (by have := List.mem_range.1 hj; omega)]
        rw [hA.lastIndex, htake, if_neg (by
          intro h0
          have := congrArg List.length h0
          simp at this
          omega)] at hm
        obtain ⟨-, hcc, -⟩ := hm
        obtain ⟨up, hup, hR'⟩ := hA.factor
        have hup' : up = finMx (mixedCov noAdapt Q
            (sampleCovM ((List.range i).map fun j => ((Hs (i - 1)).1 j).1.1))) := by
          unfold newCovariance at hup
          rw [if_neg (by rw [V.fin.noRam]; simp), hcc] at hup
          obtain ⟨cc, h1, h2⟩ := bind_ok.1 hup
          cases h1
          rw [h.qcov, h.noAdapt] at h2
          rw [← Except.ok.inj h2, ← updateCovFromCovchain_fin]
          rfl
        have hR2 : s'.cov.R = finMx (Matrix.of (updatedFactor hL ε sc (fun a b => mixedCov noAdapt Q
            (sampleCovM ((List.range i).map fun j => ((Hs (i - 1)).1 j).1.1)) a b)
            ((Hs (i - 1)).1 (i - 1)).2)) := by
          rw [hR', hup', h.R, h.scale, V.adjust,
            checkForSingular_updated hL V.fin.lapack (mixedCov_symm hQ (sampleCovM_symm _))]
          rfl
        refine ⟨hR2, fun h1 => ?_, hA.qcov.trans h.qcov, hA.noAdapt.trans h.noAdapt,
          hA.qcovScale.trans h.scale⟩
        have hdr := hA.dr
        rw [hR2, V.drscale.1] at hdr
        have hnn : E.opts.toAdaptOpts.ntry = ntry.toNat := V.ntry
        rw [hnn] at hdr
        exact stageFactors_update V.fin.lapack V.drscale.2 (by omega) hdr
    · rw [if_neg ha] at hcov
      rw [if_neg (fun hh => ha (hnow.2 hh)), hcov]
      exact ⟨h.R, h.stages, h.qcov, h.noAdapt, h.scale⟩
  obtain ⟨k1, k2, k3, k4, k5⟩ := hcovs
  obtain ⟨sS, hsched⟩ := h.sched
  refine ⟨h.fit.step V.good hp, hfin', hmom', ⟨sS, hsched.step hi hp⟩, ?_, k1, k2, k3, k4, k5, ⟨_, e3, ?_⟩, ?_⟩
  · rw [Nat.add_sub_cancel]
    refine ⟨?_, ?_, ?_, hsig, d6, d5, e6.1.symm, e5.trans e6.2.symm, ?_, rfl⟩
    · rw [hold]; exact d2
    · rw [hold]; exact d3
    · rw [hold]; exact d4
    · intro k hk
      rw [hp.value]
      exact ((propose_ok hp.prop).calls.value k hk).trans (h.joint.value k hk)
  · intro j hji
    refine ⟨hchain' j hji, ?_⟩
    rw [hidx', ← e6.1]
    rw [hidx'] at e2
    by_cases hjj : j = i
    · subst hjj
      rw [List.getElem?_set_self e2]
      rfl
    · rw [List.getElem?_set_ne (by omega)]
      exact (hrows j (by omega)).2
  · obtain ⟨l1, l2⟩ := h.log
    rw [hp.moveLog]
    refine ⟨by simp; omega, fun j rec hrec => ?_⟩
    rcases Nat.lt_or_ge j s.moveLog.length with hj | hj
    · rw [List.getElem?_append_left hj] at hrec
      exact l2 j rec hrec
    · rw [List.getElem?_append_right hj] at hrec
      have hj0 : j - s.moveLog.length = 0 := by
        have := (List.getElem?_eq_some_iff.1 hrec).1
        simp at this
        omega
      have hj1 : j = i - 1 := by omega
      rw [hj0] at hrec
      obtain rfl := (Option.some.inj hrec)
      rw [hj1]
      exact h.R

/-- the whole loop -/
theorem adaptive_loop (V : AdaptEnv E ds ntry ε) (H : JointBase E fixed q r lp) (D : IdealRng E.rng n μ)
    (hL : TriangularFactor E.lapack n) (hQ : Q.IsSymm) (hn : 1 < E.opts.nsimu) {draw : σ → (Fin m → ℝ) × σ}
    (hrate : ∀ θ, InsideOf E.problem (finVec θ) → ∀ j, 0 < N0 j * S20 j + q θ j)
    (hstab : ∀ i j, i ≤ j → (Hs j).1 i = (Hs i).1 i)
    (hHs : ∀ i, Hs (i + 1) = histStep (fun R => varianceStep (fun θ j => (N0 j * S20 j + q θ j) / 2) draw ∘
        factorStep D lp ds ntry R) (nextJoint hL E.opts.adaptint noAdapt Q ε sc) i (Hs i))
    (hgood : ∀ j, j + 1 < E.opts.nsimu → DrawsFrom E N0 S20 NX draw (factorStep D lp ds ntry ((Hs j).1 j).2
      (((Hs j).1 j).1, (Hs j).2)).2)
    {s0 : SimState XR σ N n m}
    (h0 : AdaptAt E fixed q r N0 S20 NX ds ntry noAdapt Q sc Hs 1 (loopStart s0)) :
    ∃ s', executeSimulator E s0 = .ok s' ∧ (∃ c, s'.s2chain = some c ∧ ∀ j < E.opts.nsimu,
      s'.chain[j]? = some (finVec ((Hs j).1 j).1.1) ∧ c[j]? = some (finVec ((Hs j).1 j).1.2)) ∧
      ∀ j rec, s'.moveLog[j]? = some rec → rec.R = finMx (Matrix.of ((Hs j).1 j).2) ∧
        IsUnit (Matrix.of ((Hs j).1 j).2) := by
  have hHs' : ∀ i, 1 ≤ i → Hs i = histStep (fun R => varianceStep (fun θ j => (N0 j * S20 j + q θ j) / 2) draw ∘
        factorStep D lp ds ntry R) (nextJoint hL E.opts.adaptint noAdapt Q ε sc) (i - 1) (Hs (i - 1)) := by
    intro i hi
    rw [← hHs, Nat.sub_add_cancel hi]
  let P : ℕ → SimState XR σ N n m → Prop := fun i s => AdaptAt E fixed q r N0 S20 NX ds ntry noAdapt Q sc Hs i s ∧
    ∀ j < i, IsUnit (Matrix.of ((Hs j).1 j).2)
  have hstart : P 1 (loopStart s0) := ⟨h0, fun j hj => by
    obtain rfl : j = 0 := by omega
    exact h0.unit⟩
  have hstep : ∀ i s s' p, 1 ≤ i → i < E.opts.nsimu → P i s → StepSpec E i s s' p → P (i + 1) s' := by
    intro i s s' p hi hi' h hp
    have h' := h.1.step V H D hL hQ hrate hstab (hHs' i hi) hi (hgood (i - 1) (by omega)) hp
    refine ⟨h', fun j hj => ?_⟩
    by_cases hji : j = i
    · subst hji
      exact h'.unit
    · exact h.2 j (by omega)
  have hsafe : Safe (fun _ => False) (executeSimulator E s0) := by
    unfold executeSimulator
    refine (foldlM_safe (P := P) _ _ _ hstart (fun i s hi hi' h => ?_)
      (fun i s s' hi hi' h hs => ?_)).bind fun s' _ => ?_
    · refine h.1.fit.safe' V.good (by omega) (fun _ p hp => ?_) fun _ _ p s1 r' up hp hrec hr hup => .inr ?_
      · have hj := h.1.joint
        have hp' : JointAt E.problem fixed (stepStart s).cov q r N0 S20 NX
            (((Hs (i - 1)).1 (i - 1)).1, (Hs (i - 1)).2) (stepStart s) :=
          ⟨hj.theta, hj.ss, hj.prior, hj.sigma2, hj.pos, hj.inside, hj.errModel, hj.rng, hj.value, rfl⟩
        have := (AdaptAt.draws H V.ntry D hrate (s := stepStart s) h.1.R h.1.unit h.1.stages hp'
          (hgood (i - 1) (by omega)) rfl hp).1
        have e : ∃ x, updateErrorVariance E.rng E.fuel (currentSet s p).ss s.errModel p.world.rng = .ok x := ⟨_, this⟩
        obtain ⟨x, hx⟩ := e
        rw [hx]
        exact .ok _
      · obtain ⟨_, _, h1⟩ := record_ok hrec
        have hfin := h.1.fin
        have hold : FinInv E.opts.ntry (stepStart s) := ⟨hfin.old, hfin.rows, hfin.cov⟩
        have hcur := hold.current V.fin hp
        have hcov : s1.cov = s.cov := by rw [h1]; rfl
        have hrows : ∀ v ∈ s1.chain, FinRow v := by
          rw [h1]; exact mem_set_fin hfin.rows hcur _
        rw [hcov] at hr hup ⊢
        have hch : r'.1 = none ∨ ∃ C : Matrix (Fin n) (Fin n) ℝ, r'.1 = some (finMx C) ∧ C.IsSymm := by
          rcases update_fin V.good.npos hfin.cov (fun v hv => hrows v (mem_pySlice hv)) hr with hr | ⟨C, mu, w, hr, hw, hC⟩
          · rw [hr]
            exact hfin.cov.chain.imp id fun ⟨C, _, _, e, _, _, _, hC⟩ => ⟨C, e, hC⟩
          · rw [hr]
            exact .inr ⟨C, rfl, hC⟩
        obtain ⟨R, e1, e2⟩ := factor_fin V.fin.lapack hfin.cov V.fin.noRam V.adjust hch hup
        rw [e1]
        obtain ⟨b, e3, _⟩ := V.fin.lapack.inv_some R e2
        rw [e3]; rfl
    · obtain ⟨p, hp⟩ := simStep_ok hs
      exact hstep i s s' p hi (by omega) h hp
    · unfold finish
      rw [if_neg (by omega)]
      exact .ok _
  cases hx : executeSimulator E s0 with
  | error e => exact (hsafe e hx).elim
  | ok s' =>
    obtain ⟨-, s1, ⟨h1, h2⟩, hfin⟩ := executeSimulator_inv P hstart hstep hx
    obtain ⟨c, c1, c2⟩ := h1.rows
    refine ⟨s', rfl, ⟨c, by rw [hfin]; exact c1, fun j hj => by rw [hfin]; exact c2 j hj⟩, fun j rec hrec => ?_⟩
    rw [hfin] at hrec
    refine ⟨h1.log.2 j rec hrec, h2 j ?_⟩
    have := (List.getElem?_eq_some_iff.1 hrec).1
    have hl := h1.log.1
    dsimp only at this
    omega

end loop

section run
variable {σ : Type} [MeasurableSpace σ] {μ : Measure σ} {G : Rng σ XR} {N m : ℕ} {flags : Fin N → Bool}

/-- The problem of sampling the joint posterior given by `q`, `r`, `Nobs`, `N0`, `S20` from the variances `v` and
the initial values of the table, with or without adaptation.  It is valid, the user's functions have the
values `q` and `r`; `ram` is not used (`ExactInputs`), no factors are given, `initqcovn` is not set, and no
adaptation falls into the burn-in.  The Cholesky routine returns the triangular factor. -/
structure AdaptiveJointProblem (U : UserFuns XR N (nS flags) m) (G : Rng σ XR) (L : Lapack XR)
    (specs : Fin N → ParamSpec XR) (opts : SimOpts XR)
    (extra : ExtraOpts XR (nS flags)) (ms : ModelSettings XR) (data : Data)
    (q : (Fin (nS flags) → ℝ) → Fin m → ℝ) (r : (Fin (nS flags) → ℝ) → ℝ) (Nobs N0 S20 v : Fin m → ℝ) : Prop where
  exact : ExactInputs G L (newObj specs opts extra ms data : Obj XR flags m)
  valid : ValidProblem U (newObj specs opts extra ms data : Obj XR flags m)
  triangular : TriangularFactor L (nS flags)
  noBurnin : 0 < opts.adaptint → opts.burnintime ≤ opts.adaptint
  noWeight : opts.initqcovn = none
  noFactors : extra.RDR = none
  sosDim : 0 < m
  sos : ∀ θ ss, SosThere U specs (finVec θ) ss → ss = finVec (q θ)
  prior : ∀ mu sigma, UserPrior flags specs mu sigma → ∀ θ, U.priorFun (finVec θ) mu sigma = .fin (r θ)
  settings : SampledVariances opts.updatesigma ms data.n v N0 S20 Nobs
  positive : ∀ j, 0 < v j
  shapes : ∀ j, 0 < N0 j + Nobs j
  rates : ∀ θ, InLimits flags specs (finVec θ) → ∀ j, 0 < N0 j * S20 j + q θ j
  measurable : Measurable q ∧ Measurable r

/-- The rows, variances and factors of a run follow the process `histAfter`. -/
theorem adaptive_joint_rows {U : UserFuns XR N (nS flags) m} {L : Lapack XR}
    {specs : Fin N → ParamSpec XR} {opts : SimOpts XR}
    {extra : ExtraOpts XR (nS flags)} {ms : ModelSettings XR} {data : Data}
    {q : (Fin (nS flags) → ℝ) → Fin m → ℝ} {r : (Fin (nS flags) → ℝ) → ℝ} {Nobs N0 S20 v : Fin m → ℝ}
    (H : AdaptiveJointProblem U G L specs opts extra ms data q r Nobs N0 S20 v) (D : IdealRng G (nS flags) μ)
    {ds : List ℝ} (hds : extra.drscale = ds.map .fin) (hds0 : ∀ d ∈ ds, d ≠ 0)
    {ε sc : ℝ} (hε : extra.qcovAdjust = .fin ε) (hsc : IsScale opts.adascale (nS flags) sc)
    {x : Fin (nS flags) → ℝ} (hx : ∀ i, (specs (parindOf flags i)).theta0 = .fin (x i))
    {R0 Q : Matrix (Fin (nS flags)) (Fin (nS flags)) ℝ} {fuel : ℕ} {s : σ}
    (hinit : ∀ I st o1, setupSimulator U L (newObj specs opts extra ms data) s false = .ok (o1, I, st) →
      I.cov.R = finMx R0 ∧ I.cov.qcov = finMx Q) (hQpd : Q.PosDef)
    {draw : σ → (Fin m → ℝ) × σ} {NX : List XR}
    (hNX : checkSizeOfObservations (data.n.map fun k : ℕ => (ofInt k : XR)) m = .ok NX)
    {Hs : ℕ → (ℕ → ((Fin (nS flags) → ℝ) × (Fin m → ℝ)) × (Fin (nS flags) → Fin (nS flags) → ℝ)) × σ}
    (hHs : ∀ j, Hs j = histAfter (fun R => varianceStep (fun θ j => (N0 j * S20 j + q θ j) / 2) draw ∘
        factorStep D (logPost flags specs q r) ds opts.ntry R)
        (nextJoint H.triangular opts.adaptint (noAdaptOf flags specs) Q ε sc) (x, v) (fun a b => R0 a b) j s)
    (hgood : ∀ j < opts.nsimu.toNat, ∀ s', s' = (factorStep D (logPost flags specs q r) ds opts.ntry ((Hs j).1 j).2
      (((Hs j).1 j).1, (Hs j).2)).2 → (∀ j, 0 < (draw s').1 j) ∧ ∀ q : Fin m → ℝ,
      (∀ j, 0 < N0 j * S20 j + q j) → ∀ sigma2 : Vec XR m,
      updateErrorVariance G fuel (fun j => .fin (q j))
        ({ N0 := fun j => .fin (N0 j), N := NX, S20 := .own fun j => .fin (S20 j), sigma2 := sigma2 } :
          ErrModel XR m) s' =
        .ok ({ N0 := fun j => .fin (N0 j), N := NX, S20 := .own fun j => .fin (S20 j),
               sigma2 := fun j => .fin ((N0 j * S20 j + q j) / (2 * (draw s').1 j)) }, (draw s').2)) :
    ∃ out, runSimulation U G L fuel (newObj specs opts extra ms data) s false = .ok out ∧
      (∃ c, out.results.s2chain = some c ∧ ∀ j : ℕ, (j : ℤ) < opts.nsimu →
        out.results.chain[j]? = some (finVec ((Hs j).1 j).1.1) ∧ c[j]? = some (finVec ((Hs j).1 j).1.2)) ∧
      ∀ j rec, out.final.moveLog[j]? = some rec → rec.R = finMx (Matrix.of ((Hs j).1 j).2) ∧
        IsUnit (Matrix.of ((Hs j).1 j).2) := by
  have hval := H.valid
  obtain ⟨I, st, t, Q', hset, ht, hQ', hpd'⟩ := valid_setup H.exact hval s
  obtain ⟨hst, hn0, hci, hchain, -, hs2, -, -⟩ := setup_fresh hset
  obtain ⟨hg, hfit⟩ := start_fit (G := G) (fuel := fuel) hset nofun hval.sampled hval.sos hval.delayed hval.data
  obtain ⟨hFE, hFI⟩ := start_fin (fuel := fuel) H.exact hset nofun hval.delayed ht hQ' hpd'
  obtain ⟨hR0, hQ⟩ := hinit _ _ _ hset
  have hopts : I.opts = checkDependentSimulationOptions opts ms.N0.isSome := by
    rw [hst.init.opts, hst.opts, hst.ms]; rfl
  have hnt : I.opts.ntry = opts.ntry := by rw [hopts]; rfl
  have hns : I.opts.nsimu = opts.nsimu := by rw [hopts]; rfl
  have hai : I.opts.adaptint = opts.adaptint := by rw [hopts]; rfl
  have hbt : I.opts.burnintime = opts.burnintime := by rw [hopts]; rfl
  have hq : I.opts.initqcovn = none := by rw [hopts]; exact H.noWeight
  have hu : I.opts.updatesigma = true := by
    rw [hopts]
    unfold checkDependentSimulationOptions
    dsimp only
    rcases H.settings.sampled with e | e
    · rw [e, ite_self]
    · rw [if_pos e]
  have hM : I.errModel = sampledModel N0 S20 NX v := by
    obtain ⟨ms1, c1, c2, c3⟩ := hst.init.ms
    obtain ⟨NX', e1, e2⟩ := H.settings.errModel hval.observations hval.settingsFresh c1 c2 c3
    rw [hNX] at e2
    rw [e1, ← Except.ok.inj e2]
  have hinside : ∀ θ, InsideOf I.problem (finVec θ) ↔ InLimits flags specs (finVec θ) := by
    intro θ
    unfold InsideOf
    rw [hst.init.lower, hst.init.upper]
    constructor
    · intro hout
      exact inLimits_of hout
    · intro hin
      rw [isOutside_eq_false]
      intro i
      exact hin i (parindOf flags i) (List.getElem?_eq_getElem _)
  have hsosOf : ∀ θ ss, SosOf I.problem I.world.value (finVec θ) ss → ss = finVec (q θ) := by
    rintro θ ss ⟨val, d1, d2⟩
    rw [hst.init.parind] at d1 d2
    rw [hst.init.style1, hst.init.sosFun] at d2
    refine H.sos θ ss ?_
    refine ⟨_, belongsTo_of (v := writeAt (parindOf flags) (finVec θ) val)
      (fun i => writeAt_sampled (parindOf_injective flags) i) (fun k hk => ?_), d2⟩
    rw [writeAt_fixed (not_parindOf hk), d1 k (not_parindOf hk), hst.init.value]
    rfl
  have hprior : ∀ θ, I.problem.prior (finVec θ) = .fin (r θ) := by
    intro θ
    rw [hst.init.priorFun]
    exact H.prior _ _ userPrior_setup θ
  have hth : I.initialSet.theta = finVec x := by
    rw [hst.init.theta]
    funext i
    exact hx i
  have hins : InsideOf I.problem (finVec x) := by
    refine (hinside x).2 fun i k hk => ?_
    have hik : parindOf flags i = k := by
      obtain ⟨_, hk⟩ := List.getElem?_eq_some_iff.1 hk
      exact hk
    subst hik
    have := limitsFit_of hval.initial hval.limits (parindOf flags i) (flags_parindOf i)
    change _ ∧ PyFloat.lt (specs _).theta0 _ = false ∧ PyFloat.lt _ (specs _).theta0 = false at this
    rw [hx i] at this
    exact this.2
  have hJ0 : JointAt I.problem I.world.value st.cov q r N0 S20 NX ((x, v), s) st := by
    refine ⟨by rw [hst.oldSet, hth], ?_, ?_, ?_, H.positive, hins, ?_, ?_, ?_, rfl⟩
    · rw [hst.oldSet]
      refine hsosOf x _ ⟨I.world.value, fun _ _ => rfl, ?_⟩
      have : writeAt I.problem.parind (finVec x) I.world.value = I.world.value := by
        rw [hst.init.parind]
        funext k
        cases hk : flags k with
        | true =>
          obtain ⟨i, rfl⟩ := exists_parindOf hk
          rw [writeAt_sampled (parindOf_injective flags), ← hth, hst.init.theta, hst.init.value]
          rfl
        | false => exact writeAt_fixed (not_parindOf hk)
      rw [this, hst.init.style1, hst.init.sosFun]
      exact hst.init.sos
    · rw [hst.oldSet, hst.init.prior, hth]; exact hprior x
    · rw [hst.oldSet, hst.init.sigma2, hM]; rfl
    · rw [hst.errModel, hM]
    · rw [hst.world]; exact hst.init.rng
    · intro k _; rw [hst.world]
  have hn1 : 1 < I.opts.nsimu.toNat := by
    have : 1 < opts.nsimu := hval.nsimu
    omega
  let E : Env XR σ N (nS flags) m := ⟨I.problem, G, L, runOpts I.opts extra, fuel⟩
  have hV : AdaptEnv E ds opts.ntry ε :=
    { good := hg
      fin := hFE
      sigma := hu
      ntry := by change I.opts.ntry.toNat = _; rw [hnt]
      drscale := ⟨hds, hds0⟩
      adjust := hε
      noBurnin := by
        change 0 < I.opts.adaptint → I.opts.burnintime ≤ I.opts.adaptint
        rw [hai, hbt]; exact H.noBurnin }
  have hB : JointBase E I.world.value q r (logPost flags specs q r) :=
    ⟨H.sosDim, hsosOf, hprior, fun v θ hh => if_neg fun h => hh ((hinside θ).2 h),
      fun v θ hh => if_pos ((hinside θ).1 hh)⟩
  obtain ⟨c2, -, c1, -, -, c4, c5⟩ := initCovState_ok (initializeSimulation_cov (setupSimulator_init hset))
  have hH0 : Hs 0 = (fun _ => ((x, v), fun a b => R0 a b), s) := by rw [hHs]; rfl
  have hsymm : Q.IsSymm := by
    have := hQpd.isHermitian
    rwa [Matrix.IsHermitian, Matrix.conjTranspose_eq_transpose_of_trivial] at this
  have hstart : AdaptAt E I.world.value q r N0 S20 NX ds opts.ntry (noAdaptOf flags specs) Q sc Hs 1 (loopStart st) := by
    refine ⟨?_, ?_, ?_, ⟨loopStart st, ?_⟩, ?_, ?_, ?_, ?_, ?_, ?_, ?_, ?_⟩
    · rw [hci] at hfit; exact hfit
    · exact ⟨hFI.old, hFI.rows, hFI.cov⟩
    · refine ⟨by simp [loopStart, hci], by simp [loopStart, hst.cov, c4], fun rows _ => ?_⟩
      simp [loopStart, hst.cov, c4, c1, hq, hst.adaptLog]
    · exact ⟨fun _ => rfl, fun _ => by simp [loopStart], fun _ => by simp⟩
    · rw [Nat.sub_self, hH0]
      exact ⟨hJ0.theta, hJ0.ss, hJ0.prior, hJ0.sigma2, hJ0.pos, hJ0.inside, hJ0.errModel, hJ0.rng, hJ0.value, rfl⟩
    · rw [Nat.sub_self, hH0]
      change st.cov.R = _
      rw [hst.cov, hR0]
      rfl
    · intro h1
      rw [Nat.sub_self, hH0]
      have := C17_start H.exact.lapack hset H.noFactors (hval.delayed h1).method
        (by change 0 < opts.ntry; omega) hds hds0 hR0
      change StageFactors ds opts.ntry.toNat _ st.cov
      rw [hst.cov]
      exact this
    · change st.cov.qcov = _
      rw [hst.cov, hQ]
    · change st.cov.noAdapt = _
      rw [hst.cov, c5]
      rfl
    · change st.cov.qcovScale = _
      rw [hst.cov]
      have hada : I.opts.adascale = opts.adascale := by rw [hopts]; rfl
      rw [hada] at c2
      exact (checkAdascale_fin hsc c2).1
    · refine ⟨_, by change st.s2chain = _; rw [hs2, if_pos hu], fun j hj => ?_⟩
      obtain rfl : j = 0 := by omega
      rw [hH0, hM]
      refine ⟨?_, List.getElem?_set_self (by simp [zeroRows]; omega)⟩
      change st.chain[0]? = _
      rw [hchain, hth]
      exact List.getElem?_set_self (by simp [zeroRows]; omega)
    · exact ⟨by simp [loopStart, hst.moveLog], by simp [loopStart, hst.moveLog]⟩
  obtain ⟨s', hx', ⟨c, hc, hrows⟩, hlog⟩ := adaptive_loop hV hB D H.triangular hsymm hn1
    (draw := draw) (fun θ h => H.rates θ ((hinside θ).1 h))
    (fun i j hij => by rw [hHs i, hHs j]; exact histAfter_stable hij s)
    (fun i => by
      rw [hHs, hHs]
      change histStep _ _ _ _ = _
      congr 2
      exact hai.symm)
    (fun j hj => by
      have hj' : j + 1 < I.opts.nsimu.toNat := hj
      exact hgood j (by rw [hns] at hj'; omega) _ rfl) hstart
  obtain ⟨out, ho, ho1, ho2, ho3⟩ := run_of_loop hset nofun hval.sampled hval.sos hval.delayed hval.data hx'
  refine ⟨out, ho, ⟨c, ?_, fun j hj => ?_⟩, fun j rec hrec => ?_⟩
  · obtain ⟨o1, I', s1, g1, g2, g3, g4, g5⟩ := runSimulation_ok ho
    obtain ⟨-, -, -, -, -, -, -, e, -⟩ := generateResults_ok g3
    rw [e, ho1, hc]
  · have hj' : j < I.opts.nsimu.toNat := by omega
    rw [ho3]
    exact hrows j hj'
  · rw [ho1] at hrec
    exact hlog j rec hrec

/-- **C131.** Every iteration of an adaptive run that samples the error variances is a transition that keeps the
joint posterior, chosen by the history.  There is a family of Markov kernels `P R`, one for each proposal
factor `R`, all of which leave the joint posterior of values and variances invariant.  With probability one
the run returns, with enough fuel for the rejection loops of the gamma draws; its rows of values and
variances and the factors in force are measurable functions of the generator state, the factors are
invertible, and row `j + 1` given all rows and factors up to `j` has the law `P R` of row `j`, where `R` is
the factor in force. -/
theorem C131_transitions_keep_joint_posterior [IsProbabilityMeasure μ] {U : UserFuns XR N (nS flags) m}
    {L : Lapack XR} {specs : Fin N → ParamSpec XR} {opts : SimOpts XR}
    {extra : ExtraOpts XR (nS flags)} {ms : ModelSettings XR} {data : Data}
    {q : (Fin (nS flags) → ℝ) → Fin m → ℝ} {r : (Fin (nS flags) → ℝ) → ℝ} {Nobs N0 S20 v : Fin m → ℝ}
    (H : AdaptiveJointProblem U G L specs opts extra ms data q r Nobs N0 S20 v) (D : IdealRng G (nS flags) μ)
    (D1 : IdealRng G 1 μ) :
    ∃ P : (Fin (nS flags) → Fin (nS flags) → ℝ) →
        Kernel ((Fin (nS flags) → ℝ) × (Fin m → ℝ)) ((Fin (nS flags) → ℝ) × (Fin m → ℝ)),
      (∀ R, IsMarkovKernel (P R) ∧ (P R).Invariant (jointPosterior flags specs q r Nobs N0 S20)) ∧
    ∃ (row : ℕ → σ → (Fin (nS flags) → ℝ) × (Fin m → ℝ)) (factor : ℕ → σ → Fin (nS flags) → Fin (nS flags) → ℝ),
      (∀ j, Measurable (row j) ∧ Measurable (factor j)) ∧
      (∀ᵐ s ∂μ, ∃ K, ∀ fuel, K ≤ fuel →
        ∃ out, runSimulation U G L fuel (newObj specs opts extra ms data) s false = .ok out ∧
          (∃ c, out.results.s2chain = some c ∧ ∀ j : ℕ, (j : ℤ) < opts.nsimu →
            out.results.chain[j]? = some (finVec (row j s).1) ∧ c[j]? = some (finVec (row j s).2)) ∧
          ∀ j rec, out.final.moveLog[j]? = some rec → rec.R = finMx (Matrix.of (factor j s)) ∧
            IsUnit (Matrix.of (factor j s))) ∧
      ∀ (j : ℕ) (B : Set ((Fin (nS flags) → ℝ) × (Fin m → ℝ))), MeasurableSet B →
        ∀ g : (Fin (j + 1) → ((Fin (nS flags) → ℝ) × (Fin m → ℝ)) × (Fin (nS flags) → Fin (nS flags) → ℝ)) → ℝ≥0∞,
          Measurable g →
          ∫⁻ s in {s | row (j + 1) s ∈ B}, g (fun i => (row i s, factor i s)) ∂μ =
            ∫⁻ s, P (factor j s) (row j s) B * g (fun i => (row i s, factor i s)) ∂μ := by
  classical
  obtain ⟨s0⟩ := nonempty_of_isProbabilityMeasure μ
  obtain ⟨ds, hds, hds0⟩ := H.exact.drscale
  have hds : extra.drscale = ds.map .fin := hds
  obtain ⟨ε, hε⟩ := H.exact.adjust
  have hε : extra.qcovAdjust = .fin ε := hε
  obtain ⟨sc, hsc⟩ := H.exact.scale
  have hsc : IsScale opts.adascale (nS flags) sc := hsc
  have hx : ∃ x : Fin (nS flags) → ℝ, ∀ i, (specs (parindOf flags i)).theta0 = .fin (x i) := by
    have := fun i => H.valid.initial (parindOf flags i)
    choose x hx using this
    exact ⟨x, hx⟩
  obtain ⟨x, hx⟩ := hx
  obtain ⟨I0, st0, t0, Q, hset0, ht0, hQ0, hpd⟩ := valid_setup H.exact H.valid s0
  obtain ⟨R0, hR0, hu0⟩ := (start_fin (fuel := 0) H.exact hset0 nofun H.valid.delayed ht0 hQ0 hpd).2.cov.R
  rw [(setup_start hset0).1.cov] at hR0
  obtain ⟨NX, hNX⟩ : ∃ NX, checkSizeOfObservations (data.n.map fun k : ℕ => (ofInt k : XR)) m = .ok NX := by
    obtain ⟨ms1, c1, c2, c3⟩ := (setup_start hset0).1.init.ms
    obtain ⟨NX, -, e2⟩ := H.settings.errModel H.valid.observations H.valid.settingsFresh c1 c2 c3
    exact ⟨NX, e2⟩
  have hNX' := fun j => observations_check H.settings.obs hNX j
  obtain ⟨draw, hdraw, hae⟩ := updateErrorVariance_draw (S20 := S20) D1 H.shapes NX hNX'
  have hd := measurable_logPost_density (flags := flags) (specs := specs) H.measurable.1 H.measurable.2
  have hb : Measurable fun (θ : Fin (nS flags) → ℝ) j => (N0 j * S20 j + q θ j) / 2 :=
    measurable_pi_iff.2 fun j =>
      (((measurable_pi_apply j).comp H.measurable.1).const_add _).div_const _
  have hshape : ∀ j, 0 < 1 / 2 * (N0 j + Nobs j) := fun j => by have := H.shapes j; positivity
  have hf : Measurable fun p => ENNReal.ofReal (jointDensity flags specs q r Nobs N0 S20 p) :=
    (measurable_jointDensity H.measurable.1 H.measurable.2).ennreal_ofReal
  let S := factorStep D (logPost flags specs q r) ds opts.ntry
  let T : (Fin (nS flags) → Fin (nS flags) → ℝ) → ((Fin (nS flags) → ℝ) × (Fin m → ℝ)) × σ →
      ((Fin (nS flags) → ℝ) × (Fin m → ℝ)) × σ := fun R =>
    varianceStep (fun θ j => (N0 j * S20 j + q θ j) / 2) draw ∘ S R
  let next := nextJoint (m := m) H.triangular opts.adaptint (noAdaptOf flags specs) Q ε sc
  have hSm : Measurable fun p : (Fin (nS flags) → Fin (nS flags) → ℝ) × ((Fin (nS flags) → ℝ) × (Fin m → ℝ)) × σ =>
      S p.1 p.2 := measurable_factorStep D hd ds opts.ntry
  have hT : Measurable fun p : (Fin (nS flags) → Fin (nS flags) → ℝ) × ((Fin (nS flags) → ℝ) × (Fin m → ℝ)) × σ =>
      T p.1 p.2 := (measurable_varianceStep hb hdraw.measurable).comp hSm
  have hfS : ∀ R, Fresh μ (S R) := fresh_factorStep D hd hds0 opts.ntry
  have hfT : ∀ R, Fresh μ (T R) := fun R => (fresh_varianceStep hb hshape hdraw).comp (hfS R)
  have hn : ∀ j, Measurable (next j) := measurable_nextJoint _ _ _ _ _ _
  have hinv : ∀ R, MeasurePreserving (T R) ((jointPosterior flags specs q r Nobs N0 S20).prod μ)
      ((jointPosterior flags specs q r Nobs N0 S20).prod μ) := by
    intro R
    have hmove := factorStep_invariant D (lp := logPost flags specs q r) (volume : Measure (Fin m → ℝ)) hd hds0
      opts.ntry
      (c := fun v => if ∀ j, 0 < v j then ENNReal.ofReal ((∏ j, v j ^ (-(Nobs j / 2))) *
          ∏ j, v j ^ (-(N0 j / 2) - 1) * Real.exp (-(N0 j * S20 j / (2 * v j)))) else 0) hf
      (fun p => jointDensity_values p) R
    have hvar := varianceStep_invariant (volume : Measure (Fin (nS flags) → ℝ)) hb hshape hdraw
      (C := fun θ => if InLimits flags specs (finVec θ) then ENNReal.ofReal (Real.exp (-(1 / 2) * r θ) *
          ∏ j, (Real.Gamma (1 / 2 * (N0 j + Nobs j)) /
            ((N0 j * S20 j + q θ j) / 2) ^ (1 / 2 * (N0 j + Nobs j)))) else 0)
      (fun θ hθ j => by
        have hin : InLimits flags specs (finVec θ) := by
          by_contra hh
          exact hθ (if_neg hh)
        have := H.rates θ hin j
        positivity) hf (fun p => jointDensity_variances H.shapes H.rates p)
    exact hvar.comp hmove
  let Hs : ℕ → σ → (ℕ → ((Fin (nS flags) → ℝ) × (Fin m → ℝ)) × (Fin (nS flags) → Fin (nS flags) → ℝ)) × σ :=
    histAfter T next (x, v) fun a b => R0 a b
  have hmeas : ∀ j, Measurable fun s => (Hs j s).1 j := fun j =>
    (measurable_pi_apply j).comp (measurable_fst.comp (histAfter_fresh hT hfT hn (x, v) _ j).1)
  refine ⟨fun R => rowKernel μ (T R) (hfT R).measurable, fun R => ⟨rowKernel_markov _, ?_⟩,
    fun j s => ((Hs j s).1 j).1, fun j s => ((Hs j s).1 j).2,
    fun j => ⟨measurable_fst.comp (hmeas j), measurable_snd.comp (hmeas j)⟩, ?_, ?_⟩
  · haveI : SFinite (jointPosterior flags specs q r Nobs N0 S20) := by unfold jointPosterior; infer_instance
    exact rowKernel_invariant _ (hinv R)
  · have hall := ae_all_iff.2 fun j => histAfter_ae hT hfT hn hSm hfS (x, v) (fun a b => R0 a b) j hae
    filter_upwards [hall] with s hs
    choose hpos K hK using hs
    refine ⟨(Finset.range opts.nsimu.toNat).sup K, fun fuel hfuel => ?_⟩
    refine adaptive_joint_rows H D hds hds0 hε hsc hx (R0 := R0) (Q := Q) (fun I st o1 hset => ?_) hpd hNX
      (Hs := fun j => Hs j s) (fun j => rfl) (fun j hj s' hs' => ?_)
    · rw [init_cov_const H.valid.noRestart hset hset0]
      exact ⟨hR0, hQ0⟩
    · subst hs'
      exact ⟨hpos j, hK j fuel (le_trans (Finset.le_sup (f := K) (Finset.mem_range.2 hj)) hfuel)⟩
  · intro j B hB g hg
    have hr : ∀ i : Fin (j + 1), ∀ s, (Hs j s).1 i = (Hs i s).1 i := fun i s =>
      histAfter_stable (by omega) s
    have hg' : Measurable fun h : ℕ → ((Fin (nS flags) → ℝ) × (Fin m → ℝ)) × (Fin (nS flags) → Fin (nS flags) → ℝ) =>
        g fun i : Fin (j + 1) => h i :=
      hg.comp (measurable_pi_iff.2 fun i => measurable_pi_apply _)
    have := histAfter_law hT hfT hn (x, v) (fun a b => R0 a b) j hB hg'
    change ∫⁻ s in {s | ((Hs (j + 1) s).1 (j + 1)).1 ∈ B}, g (fun i : Fin (j + 1) => (Hs j s).1 i) ∂μ =
      ∫⁻ s, μ {s' | (T ((Hs j s).1 j).2 (((Hs j s).1 j).1, s')).1 ∈ B} *
        g (fun i : Fin (j + 1) => (Hs j s).1 i) ∂μ at this
    simp only [hr] at this
    refine this.trans (lintegral_congr fun s => ?_)
    rw [rowKernel_apply _ _ hB]

end run

/-! ### Example -/

/-- A parameter in `[-10, 10]` with sum of squares `θ²` and five observations, sampled together with the error
variance by DRAM: two stages of delayed rejection and an adaptation every 100 iterations.  The hypotheses
of C131 are met. -/
theorem XRun.adaptiveJointProblem (k : ℤ) (hk : 1 < k) :
    AdaptiveJointProblem (m := 1) XRun.user (coinRng (nS XRun.flags)) choleskyLapack
    (XRun.specs true) (defineSimulationOptions { nsimu := k, method := .dram, updatesigma := true })
    (XRun.extra 1 1) (XRun.settingsAt fun _ => 2) XRun.data
    (fun θ _ => θ ⟨0, by decide⟩ * θ ⟨0, by decide⟩) (fun _ => 0) (fun _ => 5) (fun _ => 1) (fun _ => 1)
    (fun _ => 2) where
  exact := {
    lapack := choleskyLapack_ok
    draws := fun _ => ⟨_, rfl⟩
    adjust := ⟨1, rfl⟩
    burnin := ⟨10, rfl, by norm_num⟩
    drscale := ⟨[5], rfl, by simp⟩
    noRam := rfl
    weight := .inl rfl
    scale := ⟨_, .inl ⟨rfl, rfl⟩⟩
    RDR := nofun }
  valid := {
    nsimu := hk
    sampled := by decide
    initial := fun _ => ⟨_, rfl⟩
    limits := fun k _ => by simp [newObj, XRun.specs]
    localFit := .inl rfl
    sos := fun v => by simp [XRun.user]
    data := show XRun.data.n ≠ [] by decide
    settings := ⟨fun v hv => by cases hv; exact .inl rfl, fun v hv => by cases hv; exact .inl rfl, nofun,
      .inr (.inl rfl), .inl (show XRun.data.n.length ≤ 1 by decide)⟩
    settingsFresh := rfl
    observations := rfl
    covariance := .inl ⟨fun _ => 1, rfl, fun _ => one_pos⟩
    drscale := by change [XR.fin 5] ≠ []; simp
    factors := nofun
    delayed := fun _ => ⟨.inr rfl, rfl, fun _ => ⟨show (0 : ℤ) ≤ 100 by decide, by
      change [XR.fin 5] ≠ []; simp⟩⟩
    noRestart := rfl }
  triangular := choleskyLapack_factor _
  noBurnin := fun _ => show (0 : ℤ) ≤ 100 by decide
  noWeight := rfl
  noFactors := rfl
  sosDim := one_pos
  sos := (XRun.fixedProblem k hk).sos
  prior _ _ _ _ := rfl
  settings := ⟨.inl rfl, .inr ⟨_, rfl, .inl ⟨2, rfl, fun _ => rfl⟩⟩,
    .inr (.inr ⟨_, rfl, .inl ⟨1, rfl, fun _ => rfl⟩⟩), .inl (.inl ⟨1, rfl, fun _ => rfl⟩),
    .inl ⟨5, by decide, fun _ => by norm_num⟩⟩
  positive _ := by norm_num
  shapes _ := by norm_num
  rates θ _ _ := by have := mul_self_nonneg (θ ⟨0, by decide⟩); linarith
  measurable := ⟨by fun_prop, measurable_const⟩

/-- C131 for that problem: almost every run returns 1000 rows of both chains, with an adaptation at iteration
100, and the joint density is not zero. -/
example : (∃ (P : _ → Kernel ((Fin (nS XRun.flags) → ℝ) × (Fin 1 → ℝ)) ((Fin (nS XRun.flags) → ℝ) × (Fin 1 → ℝ)))
      (row : ℕ → CoinState (nS XRun.flags) → (Fin (nS XRun.flags) → ℝ) × (Fin 1 → ℝ))
      (factor : ℕ → CoinState (nS XRun.flags) → Fin (nS XRun.flags) → Fin (nS XRun.flags) → ℝ),
    (∀ R, (P R).Invariant (jointPosterior (m := 1) XRun.flags (XRun.specs true)
        (fun θ _ => θ ⟨0, by decide⟩ * θ ⟨0, by decide⟩) (fun _ => 0) (fun _ => 5) (fun _ => 1) (fun _ => 1))) ∧
    (∀ᵐ s ∂coinLaw (nS XRun.flags), ∃ fuel out,
      runSimulation XRun.user (coinRng (nS XRun.flags)) choleskyLapack fuel
      (newObj (m := 1) (XRun.specs true)
        (defineSimulationOptions { nsimu := 1000, method := .dram, updatesigma := true })
        (XRun.extra 1 1) (XRun.settingsAt fun _ => 2) XRun.data) s false = .ok out ∧
      100 ∈ out.final.adaptedAt ∧ out.results.chain[999]? = some (finVec (row 999 s).1)) ∧
    ∀ B, MeasurableSet B → coinLaw _ {s | row 999 s ∈ B} =
      ∫⁻ s, P (factor 998 s) (row 998 s) B ∂coinLaw _) ∧
    jointDensity (m := 1) XRun.flags (XRun.specs true)
      (fun θ _ => θ ⟨0, by decide⟩ * θ ⟨0, by decide⟩) (fun _ => 0) (fun _ => 5) (fun _ => 1) (fun _ => 1)
      (fun _ => 3, fun _ => 1) = Real.exp (-5) := by
  have D1 : IdealRng (coinRng (nS XRun.flags)) 1 (coinLaw (nS XRun.flags)) := by
    rw [XRun.nS_flags]; exact coinIdeal 1
  obtain ⟨P, hP, row, factor, -, h2, h3⟩ :=
    C131_transitions_keep_joint_posterior (XRun.adaptiveJointProblem 1000 (by decide)) (coinIdeal _) D1
  refine ⟨⟨P, row, factor, fun R => (hP R).2, ?_, fun B hB => ?_⟩, ?_⟩
  · filter_upwards [h2] with s hs
    obtain ⟨K, hK⟩ := hs
    obtain ⟨out, h, ⟨c, -, h4⟩, -⟩ := hK K le_rfl
    refine ⟨K, out, h, ?_, (h4 999 (show (999 : ℤ) < 1000 by decide)).1⟩
    exact (((C14_adaptation_schedule_partial h).1 (show (0 : ℤ) < 100 by decide)).2 100).2
      ⟨by decide, show (100 : ℤ) < 1000 by decide, show (100 : ℤ) ∣ 100 by decide⟩
  · have := h3 998 B hB (fun _ => 1) measurable_const
    simpa using this
  · have hin : InLimits XRun.flags (XRun.specs true) (finVec fun _ => 3) := by
      intro i k _
      simp [XRun.specs, finVec]
      norm_num
    unfold jointDensity
    rw [Set.indicator_of_mem (by exact ⟨hin, fun _ => one_pos⟩)]
    simp [← Real.exp_add]
    norm_num

end Verif
