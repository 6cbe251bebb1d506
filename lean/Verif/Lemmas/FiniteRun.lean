import Verif.Lemmas.FactorsXR
import Verif.Lemmas.CovXR

/-! # Runs in exact arithmetic stay finite and their factors stay invertible -/

set_option linter.unusedSectionVars false

namespace Verif
open Matrix
variable {σ : Type} {N n m : ℕ}

/-- a row of finite numbers -/
def FinRow (v : Vec XR n) : Prop := ∃ t, v = finVec t

/-- Conditions on what stays the same during a loop: exact linear algebra, finite normal draws,
finite options, no robust adaptation. -/
structure FinEnv (E : Env XR σ N n m) : Prop where
  lapack : ExactLapack E.lapack
  draws : ∀ s, FinRow (E.rng.randn n s).1
  adjust : ∃ ε, E.opts.qcovAdjust = .fin ε
  burnin : ∃ b, E.opts.burninScale = .fin b ∧ b ≠ 0
  drscale : ∃ ds : List ℝ, E.opts.drscale = ds.map .fin ∧ ∀ d ∈ ds, d ≠ 0
  noRam : E.opts.doram = false

/-- the covariance object is finite, its factor invertible -/
structure CovFin (ntry : ℕ) (c : CovState XR n) : Prop where
  R : ∃ R : Matrix (Fin n) (Fin n) ℝ, c.R = finMx R ∧ IsUnit R
  RDR : 1 < ntry → ∀ l, c.RDR = .some l → ∀ M ∈ l, ∃ A : Matrix (Fin n) (Fin n) ℝ, M = finMx A
  chain : c.covchain = none ∨ ∃ (C : Matrix (Fin n) (Fin n) ℝ) (mu : Fin n → ℝ) (w : ℝ),
    c.covchain = some (finMx C) ∧ c.meanchain = some (finVec mu) ∧ c.wsum = some (.fin w) ∧
    1 ≤ w ∧ C.IsSymm
  qcov : ∃ Q : Matrix (Fin n) (Fin n) ℝ, c.qcov = finMx Q ∧ Q.IsSymm
  scale : ∃ s : ℝ, c.qcovScale = .fin s ∧ 0 < s

/-! ### Proposals -/

theorem candidate_finRow {old : Vec XR n} {R : Mat XR n} {z : Vec XR n} (h1 : FinRow old)
    (h2 : ∃ A : Matrix (Fin n) (Fin n) ℝ, R = finMx A) (h3 : FinRow z) :
    FinRow fun j => old j + vecMat z R j := by
  obtain ⟨t, rfl⟩ := h1
  obtain ⟨A, rfl⟩ := h2
  obtain ⟨z, rfl⟩ := h3
  refine ⟨fun j => t j + ∑ i, z i * A i j, ?_⟩
  funext j
  simp [vecMat, finVec, finMx, finMat]

theorem metropolis_fin {P : Problem XR N n m} {G : Rng σ XR} (hG : ∀ s, FinRow (G.randn n s).1)
    {old : ParamSet XR n m} {R : Mat XR n} {w : World XR σ N} {r} (h1 : FinRow old.theta)
    (h2 : ∃ A : Matrix (Fin n) (Fin n) ℝ, R = finMx A)
    (h : runMetropolisStep P G old R w = .ok r) : FinRow r.1.newSet.theta := by
  have hc := candidate_finRow h1 h2 (hG w.rng)
  unfold runMetropolisStep sampleCandidate at h
  dsimp only at h
  split at h
  · cases h; exact hc
  · obtain ⟨_, _, h⟩ := bind_ok.1 h
    cases h; exact hc

theorem drLoop_fin {P : Problem XR N n m} {G : Rng σ XR} (hG : ∀ s, FinRow (G.randn n s).1)
    {old : ParamSet XR n m} {sigma2 : Vec XR m} {RDR : Slot (List (Mat XR n))}
    {invR : Option (List (Mat XR n))} (h1 : FinRow old.theta)
    (h2 : ∀ l, RDR = .some l → ∀ M ∈ l, ∃ A : Matrix (Fin n) (Fin n) ℝ, M = finMx A) :
    ∀ {left itry : ℕ} {path : List (ParamSet XR n m)} {o o' : DrOut XR σ N n m},
      drLoop P G old sigma2 RDR invR left itry path o = .ok o' →
      (∀ x, o.outSet = some x → FinRow x.1.theta) → ∀ x, o'.outSet = some x → FinRow x.1.theta
  | 0, _, _, _, _, h, ho => by cases h; exact ho
  | left + 1, itry, path, o, o', h, ho => by
    unfold drLoop at h
    obtain ⟨R, hR, h⟩ := bind_ok.1 h
    have hR' : ∃ A : Matrix (Fin n) (Fin n) ℝ, R = finMx A := by
      cases hs : RDR with
      | missing => rw [hs] at hR; cases hR
      | pyNone => rw [hs] at hR; cases hR
      | some l =>
        rw [hs] at hR
        exact h2 l hs R (List.mem_of_getElem? (pyGet_ok.1 hR))
    have hc := candidate_finRow h1 hR' (hG o.world.rng)
    dsimp only at h
    split at h
    · exact drLoop_fin hG h1 h2 h (by rintro x ⟨⟩; exact h1)
    · obtain ⟨e, _, h⟩ := bind_ok.1 h
      obtain ⟨inv, _, h⟩ := bind_ok.1 h
      obtain ⟨ac, _, h⟩ := bind_ok.1 h
      obtain ⟨x, _, h⟩ := bind_ok.1 h
      obtain ⟨ia, _, h⟩ := bind_ok.1 h
      split at h
      · rename_i hacc
        cases h
        rintro x ⟨⟩
        exact hc
      · rename_i hacc
        refine drLoop_fin hG h1 h2 h ?_
        rintro x ⟨⟩
        exact h1

theorem propose_fin {E : Env XR σ N n m} (hE : FinEnv E) {s : SimState XR σ N n m}
    {p : Proposal XR σ N n m} (h : propose E s = .ok p) (hold : FinRow s.oldSet.theta)
    (hc : CovFin E.opts.ntry s.cov) : FinRow p.newSet.theta := by
  obtain ⟨R, hR, _⟩ := hc.R
  unfold propose at h
  obtain ⟨⟨r, z⟩, h1, h⟩ := bind_ok.1 h
  dsimp only at h
  split at h
  · rename_i hnt
    obtain ⟨⟨o2, dr, ts⟩, h2, h⟩ := bind_ok.1 h
    cases h
    unfold runDelayedRejection at h2
    obtain ⟨o, ho, h2⟩ := bind_ok.1 h2
    have hf := drLoop_fin hE.draws hold (hc.RDR hnt.1) ho (by rintro x ⟨⟩)
    split at h2
    · rename_i x ob hs
      cases h2
      exact hf _ hs
    · cases h2
  · cases h
    exact metropolis_fin hE.draws hold ⟨R, hR⟩ h1

/-! ### Adaptation -/

theorem foldl_covStepR_symm : ∀ (l : List ((Fin n → ℝ) × ℝ))
    (a : (Fin n → Fin n → ℝ) × (Fin n → ℝ) × ℝ), (∀ i j, a.1 i j = a.1 j i) →
    ∀ i j, (l.foldl covStepR a).1 i j = (l.foldl covStepR a).1 j i
  | [], a, h => h
  | p :: l, a, h => by
    rw [List.foldl_cons]
    apply foldl_covStepR_symm l
    intro i j
    simp only [covStepR]
    rw [h i j, mul_comm (p.1 i - a.2.1 i)]

theorem sampleCov_symm (rows : List (Fin n → ℝ)) (i j : Fin n) :
    sampleCov rows i j = sampleCov rows j i := by
  simp only [sampleCov]
  congr 3
  funext r
  rw [mul_comm]

/-- the recursion keeps the values finite -/
theorem update_fin (hn : 0 < n) {k : ℕ} {c : CovState XR n} (hc : CovFin k c) {seg : List (Vec XR n)}
    (hseg : ∀ v ∈ seg, FinRow v) {r}
    (h : updateCovarianceMeanSum seg (some [lit 1]) c.covchain c.meanchain c.wsum = .ok r) :
    (r = (c.covchain, c.meanchain, c.wsum)) ∨
    ∃ (C : Matrix (Fin n) (Fin n) ℝ) (mu : Fin n → ℝ) (w : ℝ),
    r = (some (finMx C), some (finVec mu), some (.fin w)) ∧ 1 ≤ w ∧ C.IsSymm := by
  obtain ⟨rows, rfl⟩ : ∃ rows : List (Fin n → ℝ), seg = rows.map finVec := by
    clear h
    induction seg with
    | nil => exact ⟨[], rfl⟩
    | cons v l ih =>
      obtain ⟨t, rfl⟩ := hseg v (by simp)
      obtain ⟨rows, rfl⟩ := ih fun v hv => hseg v (by simp [hv])
      exact ⟨t :: rows, rfl⟩
  by_cases hr : rows = []
  · subst hr
    unfold updateCovarianceMeanSum at h
    simp only [List.map_nil, List.length_nil, true_or, if_true] at h
    exact .inl (Except.ok.inj h).symm
  right
  have hn2 : ones rows ≠ [] := by simpa [ones] using hr
  have hl : 1 ≤ rows.length := List.length_pos_iff.2 hr
  rw [update_unit] at h
  rcases hc.chain with h0 | ⟨C, mu, w, e1, e2, e3, hw, hs⟩
  · rw [h0, update_none _ hn hn2 (wSum_pos hn2 (by simp [ones])).ne', cov_single hr, wSum_ones] at h
    refine ⟨Matrix.of (sampleCov rows), _, _, (Except.ok.inj h).symm, by exact_mod_cast hl, ?_⟩
    ext i j
    exact sampleCov_symm rows j i
  · have hg := goodWeights_of_one_le hw (ones rows) (by simp [ones])
    rw [e1, e2, e3] at h
    unfold finMx at h
    rw [update_some (ones rows) hn (C, mu, w) hg] at h
    obtain ⟨f1, _, _⟩ := foldl_covStepR (ones rows) (C, mu, w) hg
    refine ⟨Matrix.of ((ones rows).foldl covStepR (C, mu, w)).1, _, _, (Except.ok.inj h).symm, ?_, ?_⟩
    · rw [f1, wSum_ones]
      dsimp only
      have : (0 : ℝ) ≤ rows.length := by positivity
      linarith
    · ext i j
      exact foldl_covStepR_symm _ _ (fun i j => congrFun (congrFun hs.symm i) j) j i

/-- the factor after an adaptation is finite and invertible -/
theorem factor_fin {L : Lapack XR} (hL : ExactLapack L) {k : ℕ} {c : CovState XR n} (hc : CovFin k c)
    {o : AdaptOpts XR} (hram : o.doram = false) {ε : ℝ} (hε : o.qcovAdjust = .fin ε) {i : ℕ}
    {cc : Option (Mat XR n)}
    (hcc : cc = none ∨ ∃ C : Matrix (Fin n) (Fin n) ℝ, cc = some (finMx C) ∧ C.IsSymm)
    {u : Vec XR n} {alpha : Option XR} {up : Mat XR n} (h : newCovariance c o i cc u alpha = .ok up) :
    ∃ R : Matrix (Fin n) (Fin n) ℝ,
      checkForSingular L up c.R o.qcovAdjust c.qcovScale = finMx R ∧ IsUnit R := by
  unfold newCovariance at h
  rw [if_neg (by simp [hram])] at h
  obtain ⟨cm, h1, h⟩ := bind_ok.1 h
  rw [orRaise_ok] at h1
  rcases hcc with rfl | ⟨C, rfl, hC⟩
  · cases h1
  · cases h1
    obtain ⟨Q, hQ, hQs⟩ := hc.qcov
    obtain ⟨s, hs, hs0⟩ := hc.scale
    obtain ⟨R0, hR0, hu⟩ := hc.R
    rw [hQ, updateCovFromCovchain_fin] at h
    rw [← Except.ok.inj h, hε, hs]
    obtain ⟨a, b, d⟩ := checkForSingular_exact hL (mixedCov_symm (fixed := c.noAdapt) hQs hC) c.R ε s
    by_cases p1 : (mixedCov c.noAdapt Q C).PosDef
    · obtain ⟨R, e1, e2⟩ := a p1
      exact ⟨R, e1, isUnit_of_gram e2 (isUnit_smul_posDef p1 hs0)⟩
    · by_cases p2 : (mixedCov c.noAdapt Q C + ε • 1).PosDef
      · obtain ⟨R, e1, e2⟩ := b p1 p2
        exact ⟨R, e1, isUnit_of_gram e2 (isUnit_smul_posDef p2 hs0)⟩
      · exact ⟨R0, by rw [d p1 p2, hR0], hu⟩

theorem stageFactors_update {L : Lapack XR} (hL : ExactLapack L) {R : Matrix (Fin n) (Fin n) ℝ}
    {ds : List ℝ} (h0 : ∀ d ∈ ds, d ≠ 0) {ntry : ℕ} (hnt : 1 < ntry) {c : CovState XR n}
    (h : updateDelayedRejection L (finMx R) ntry (ds.map .fin) = .ok (c.RDR, c.invR)) :
    StageFactors ds ntry R c := by
  unfold updateDelayedRejection at h
  rw [if_pos hnt] at h
  obtain ⟨iR, h1, h⟩ := bind_ok.1 h
  obtain ⟨⟨l, il⟩, h2, h⟩ := bind_ok.1 h
  have h := Except.ok.inj h
  rw [Prod.mk.injEq] at h
  have h1 := orRaise_ok.1 h1
  by_cases hu : IsUnit R
  · obtain ⟨b, e1, e2⟩ := hL.inv_some _ hu
    rw [e1] at h1
    cases h1
    have hz : (stageScale ds 0)⁻¹ • R = R := by simp [stageScale]
    have hb : ((stageScale ds 0)⁻¹ • R) * b = 1 := by rw [hz, e2]
    rw [← hz] at h2
    have hst := StagesFrom.cons hb (drFactorLoop_stages h0 R hb h2)
    obtain ⟨l1, l2⟩ := drFactorLoop_length h2
    dsimp only at l1 l2 hst
    rw [hz] at hst
    refine ⟨_, _, h.1.symm, h.2.symm, by simp; omega, by simp; omega, fun k hk => ?_⟩
    have := hst k (by simp; omega)
    rwa [zero_add] at this
  · rw [hL.inv_none _ hu] at h1
    cases h1

theorem StageFactors.finite {ds : List ℝ} {ntry : ℕ} {R : Matrix (Fin n) (Fin n) ℝ}
    {c : CovState XR n} (h : StageFactors ds ntry R c) (l : List (Mat XR n)) (hl : c.RDR = .some l) :
    ∀ M ∈ l, ∃ A : Matrix (Fin n) (Fin n) ℝ, M = finMx A := by
  obtain ⟨l', il, e1, _, e2, _, e3⟩ := h
  rw [hl] at e1
  cases e1
  intro M hM
  obtain ⟨k, hk, rfl⟩ := List.mem_iff_getElem.1 hM
  obtain ⟨b, e4, _⟩ := e3 k (by omega)
  rw [List.getElem?_eq_getElem hk] at e4
  exact ⟨_, Option.some.inj e4⟩

theorem adapt_fin {L : Lapack XR} (hL : ExactLapack L) (hn : 0 < n) {c c' : CovState XR n}
    {o : AdaptOpts XR} (hc : CovFin o.ntry c) (hram : o.doram = false) (hε : ∃ ε, o.qcovAdjust = .fin ε)
    (hds : ∃ ds : List ℝ, o.drscale = ds.map .fin ∧ ∀ d ∈ ds, d ≠ 0)
    {i : ℕ} {seg : List (Vec XR n)}
    (hseg : ∀ v ∈ seg, FinRow v) {u : Vec XR n} {alpha : Option XR}
    (h : AdaptSpec L o i seg u alpha c c') : CovFin o.ntry c' := by
  obtain ⟨ε, hε⟩ := hε
  obtain ⟨ds, hds, hd0⟩ := hds
  have hch : c'.covchain = none ∨ ∃ (C : Matrix (Fin n) (Fin n) ℝ) (mu : Fin n → ℝ) (w : ℝ),
      c'.covchain = some (finMx C) ∧ c'.meanchain = some (finVec mu) ∧ c'.wsum = some (.fin w) ∧
      1 ≤ w ∧ C.IsSymm := by
    rcases update_fin hn hc hseg h.update with hr | ⟨C, mu, w, hr, hw, hC⟩
    · rw [Prod.mk.injEq, Prod.mk.injEq] at hr
      rw [hr.1, hr.2.1, hr.2.2]
      exact hc.chain
    · rw [Prod.mk.injEq, Prod.mk.injEq] at hr
      exact .inr ⟨C, mu, w, hr.1, hr.2.1, hr.2.2, hw, hC⟩
  obtain ⟨up, h1, h2⟩ := h.factor
  obtain ⟨R, e1, e2⟩ := factor_fin hL hc hram hε (hch.imp id fun ⟨C, _, _, e, _, _, _, hC⟩ => ⟨C, e, hC⟩) h1
  rw [← h2] at e1
  refine ⟨⟨R, e1, e2⟩, ?_, hch, by rw [h.qcov]; exact hc.qcov, by rw [h.qcovScale]; exact hc.scale⟩
  have hdr := h.dr
  rw [e1, hds] at hdr
  by_cases hnt : 1 < o.ntry
  · exact fun _ => (stageFactors_update hL hd0 hnt hdr).finite
  · exact fun h => absurd h hnt

/-! ### The loop -/

/-- invariant of the loop -/
structure FinInv (ntry : ℕ) (s : SimState XR σ N n m) : Prop where
  old : FinRow s.oldSet.theta
  rows : ∀ v ∈ s.chain, FinRow v
  cov : CovFin ntry s.cov

theorem FinInv.current {E : Env XR σ N n m} (hE : FinEnv E) {s : SimState XR σ N n m}
    (h : FinInv E.opts.ntry s) {p : Proposal XR σ N n m} (hp : propose E s = .ok p) :
    FinRow (currentSet s p).theta := by
  unfold currentSet
  split
  · exact propose_fin hE hp h.old h.cov
  · exact h.old

theorem mem_set_fin {l : List (Vec XR n)} (h : ∀ v ∈ l, FinRow v) {t : Vec XR n} (ht : FinRow t)
    (k : ℕ) : ∀ v ∈ l.set k t, FinRow v := by
  intro v hv
  rcases List.mem_or_eq_of_mem_set hv with h' | rfl
  · exact h v h'
  · exact ht

theorem mem_pySlice {α : Type} {l : List α} {a b : ℕ} {v : α} (h : v ∈ pySlice l a b) : v ∈ l :=
  List.mem_of_mem_take (List.mem_of_mem_drop h)

theorem belowBurnin_fin (rej : Rejected) (ii : ℕ) {R : Matrix (Fin n) (Fin n) ℝ} (hu : IsUnit R)
    {b : ℝ} (hb0 : b ≠ 0) : ∃ R' : Matrix (Fin n) (Fin n) ℝ,
      belowBurninThreshold rej ii (finMx R) (.fin b) = finMx R' ∧ IsUnit R' := by
  have hunit : ∀ x : ℝ, x ≠ 0 → IsUnit (x • R) := fun x hx => by
    rw [Matrix.isUnit_iff_isUnit_det, det_smul]
    exact (isUnit_iff_ne_zero.2 (pow_ne_zero _ hx)).mul ((Matrix.isUnit_iff_isUnit_det _).1 hu)
  have e1 : (lit 1 : XR) / .fin b = .fin (1 / b) := by rw [XR.lit_eq, XR.fin_div hb0]; simp
  unfold belowBurninThreshold
  dsimp only
  rw [e1]
  split
  · exact ⟨_, matScale_fin _ _, hunit _ (by simpa using hb0)⟩
  · split
    · exact ⟨_, matScale_fin _ _, hunit _ hb0⟩
    · exact ⟨R, rfl, hu⟩

theorem FinInv.step {E : Env XR σ N n m} (hE : FinEnv E) (hn : 0 < n) {i : ℕ}
    {s s' : SimState XR σ N n m} {p : Proposal XR σ N n m} (h : FinInv E.opts.ntry s)
    (hp : StepSpec E i s s' p) : FinInv E.opts.ntry s' := by
  have hcur := h.current hE hp.prop
  have hrows : ∀ v ∈ s'.chain, FinRow v := by
    rw [hp.chain]; exact mem_set_fin h.rows hcur _
  refine ⟨by rw [hp.old]; exact hcur, hrows, ?_⟩
  have hcov := hp.cov
  by_cases ha : adaptNow E s
  · rw [if_pos ha] at hcov
    rcases runAdaptation_ok hcov with ⟨hb, hc⟩ | ⟨hb, hc⟩
    · rw [hc]
      obtain ⟨R, hR, hu⟩ := h.cov.R
      obtain ⟨b, hb', hb0⟩ := hE.burnin
      refine ⟨?_, by rintro _ l ⟨⟩, h.cov.chain, h.cov.qcov, h.cov.scale⟩
      rw [hR, hb']
      exact belowBurnin_fin _ _ hu hb0
    · exact adapt_fin hE.lapack hn h.cov hE.noRam hE.adjust hE.drscale
        (fun v hv => hrows v (mem_pySlice hv)) hc
  · rw [if_neg ha] at hcov
    rw [hcov]; exact h.cov

/-- In exact arithmetic no iteration fails for want of an inverse. -/
theorem FinInv.safe {E : Env XR σ N n m} (hE : FinEnv E) (hg : GoodOpts E) {c0 i : ℕ}
    {s : SimState XR σ N n m} (h : FinInv E.opts.ntry s) (hf : Fit E c0 i s) (hi' : i < E.opts.nsimu) :
    Safe (fun e => e = .outOfFuel ∧ E.opts.updatesigma = true) (simStep E s i) := by
  refine hf.safe' hg hi' (fun hu _ _ => safe_updateErrorVariance (fun _ => ⟨rfl, hu⟩) _ (hf.obs hu) _) fun _ _ p s1 r up hp hrec hr hup => .inr ?_
  obtain ⟨_, _, h1⟩ := record_ok hrec
  have hold : FinInv E.opts.ntry (stepStart s) := ⟨h.old, h.rows, h.cov⟩
  have hcur := hold.current hE hp
  have hcov : s1.cov = s.cov := by rw [h1]; rfl
  have hrows : ∀ v ∈ s1.chain, FinRow v := by
    rw [h1]; exact mem_set_fin h.rows hcur _
  rw [hcov] at hr hup ⊢
  obtain ⟨ε, hε⟩ := hE.adjust
  have hch : r.1 = none ∨ ∃ C : Matrix (Fin n) (Fin n) ℝ, r.1 = some (finMx C) ∧ C.IsSymm := by
    rcases update_fin hg.npos h.cov (fun v hv => hrows v (mem_pySlice hv)) hr with hr | ⟨C, mu, w, hr, hw, hC⟩
    · rw [hr]
      exact h.cov.chain.imp id fun ⟨C, _, _, e, _, _, _, hC⟩ => ⟨C, e, hC⟩
    · rw [hr]
      exact .inr ⟨C, rfl, hC⟩
  obtain ⟨R, e1, e2⟩ := factor_fin hE.lapack h.cov hE.noRam hε hch hup
  rw [e1]
  obtain ⟨b, e3, _⟩ := hE.lapack.inv_some R e2
  rw [e3]; rfl

theorem safe_executeSimulator_fin {E : Env XR σ N n m} (hE : FinEnv E) (hg : GoodOpts E)
    {s : SimState XR σ N n m} (h : FinInv E.opts.ntry s) (hf : Fit E s.chainIndex 1 (loopStart s))
    (hn : 1 < E.opts.nsimu) :
    Safe (fun e => e = .outOfFuel ∧ E.opts.updatesigma = true) (executeSimulator E s) := by
  unfold executeSimulator
  refine (foldlM_safe (P := fun i s' => Fit E s.chainIndex i s' ∧ FinInv E.opts.ntry s') _ _ _
    ⟨hf, h.old, h.rows, h.cov⟩
    (fun i s' hi hi' hf => hf.2.safe hE hg hf.1 (by omega))
    (fun i s' s'' hi hi' hf hs => ?_)).bind fun s' _ => ?_
  · obtain ⟨p, hp⟩ := simStep_ok hs
    exact ⟨hf.1.step hg hp, hf.2.step hE hg.npos hp⟩
  · unfold finish
    rw [if_neg (by omega)]
    exact .ok _

end Verif
