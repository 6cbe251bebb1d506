import Verif.Lemmas.CovBound
import Verif.Props.Run
import Verif.Props.Decisions
import Verif.Props.Factors

/-! # C132: adaptation diminishes -/

set_option linter.unusedSectionVars false

namespace Verif
open Matrix
variable {σ : Type} {n N m : ℕ} {flags : Fin N → Bool}

/-- finite rows within finite limits -/
theorem rows_in_range {specs : Fin N → ParamSpec XR} {a b : Fin (nS flags) → ℝ}
    (hlim : ∀ i k, ((List.finRange N).filter flags)[i.val]? = some k →
      (specs k).minimum = .fin (a i) ∧ (specs k).maximum = .fin (b i))
    {row : Vec XR (nS flags)} (h : InLimits flags specs row) {r : Fin (nS flags) → ℝ} (hr : row = finVec r)
    (i : Fin (nS flags)) : a i ≤ r i ∧ r i ≤ b i := by
  have hk := List.getElem?_eq_getElem (l := (List.finRange N).filter flags) i.isLt
  obtain ⟨h1, h2⟩ := hlim i _ hk
  obtain ⟨h3, h4⟩ := h i _ hk
  rw [h1, hr] at h3
  rw [h2, hr] at h4
  simp only [finVec, XR.fin_lt, decide_eq_false_iff_not, not_lt] at h3 h4
  exact ⟨h3, h4⟩

theorem take_split {α : Type} {l : List α} {p q : ℕ} (h : p ≤ q) :
    l.take q = l.take p ++ (l.take q).drop p := by
  have := (List.take_append_drop p (l.take q)).symm
  rwa [List.take_take, min_eq_left h] at this

/-- **C132.** In a fresh run without prior weight, with finite limits `[a, b]` of the sampled parameters and
finite rows: between an adaptation in iteration `p` and a later one in iteration `q`, both past the burn-in,
the mean used for adaptation moves by at most `(b i - a i) (q - p) / q`, and the entries of the
covariance by at most `2 (b i - a i) (b j - a j) (q - p) / (q - 1)`.  So from one adaptation to the next, where
`q - p` is the adaptation interval, the change tends to zero like `1/q`. -/
theorem C132_moments_settle {U : UserFuns XR N (nS flags) m} {specs : Fin N → ParamSpec XR}
    {opts : SimOpts XR} {extra : ExtraOpts XR (nS flags)} {ms : ModelSettings XR} {data : Data}
    {o : Obj XR flags m} (ho : Reachable U (newObj specs opts extra ms data) o)
    {G : Rng σ XR} {L : Lapack XR} {fuel : ℕ} {rng : σ} {out : RunOut XR σ flags m} (hn : 0 < nS flags)
    (h : runSimulation U G L fuel o rng false = .ok out) (hq : o.opts.initqcovn = none)
    (hrows : ∀ row ∈ out.results.chain, ∃ r, row = finVec r) {a b : Fin (nS flags) → ℝ}
    (hlim : ∀ i k, ((List.finRange N).filter flags)[i.val]? = some k →
      (specs k).minimum = .fin (a i) ∧ (specs k).maximum = .fin (b i))
    {r r' : AdaptRecord XR (nS flags)} (hr : r ∈ out.final.adaptLog) (hr' : r' ∈ out.final.adaptLog)
    (hb : o.opts.burnintime ≤ r.at_) (hle : r.at_ ≤ r'.at_) :
    ∃ (M M' : Fin (nS flags) → ℝ) (C C' : Fin (nS flags) → Fin (nS flags) → ℝ),
      r.after.meanchain = some (finVec M) ∧ r'.after.meanchain = some (finVec M') ∧
      r.after.covchain = some (finMat C) ∧ r'.after.covchain = some (finMat C') ∧
      (∀ i, |M' i - M i| ≤ (b i - a i) * ((r'.at_ : ℝ) - r.at_) / r'.at_) ∧
      ∀ i j, |C' i j - C i j| ≤ 2 * ((b i - a i) * (b j - a j)) * ((r'.at_ : ℝ) - r.at_) / ((r'.at_ : ℝ) - 1) := by
  have hin := C01_rows_within_limits ho h
  obtain ⟨rows, hrw⟩ : ∃ rows : List (Fin (nS flags) → ℝ), out.results.chain = rows.map finVec := by
    clear hin
    generalize out.results.chain = l at hrows
    induction l with
    | nil => exact ⟨[], rfl⟩
    | cons x l ih =>
      obtain ⟨y, hy⟩ := hrows x (by simp)
      obtain ⟨ys, hys⟩ := ih fun r hr => hrows r (by simp [hr])
      exact ⟨y :: ys, by rw [hy, hys]; rfl⟩
  obtain ⟨e1, e2, -, e3⟩ := C12_adapted_moments hn h hq hrw r hr hb
  obtain ⟨f1, f2, -, f3⟩ := C12_adapted_moments hn h hq hrw r' hr' (by omega)
  have hpos := (run_adapt h r hr).pos
  have hrange : ∀ x ∈ rows, ∀ i, a i ≤ x i ∧ x i ≤ b i := fun x hx i =>
    rows_in_range hlim (hin (finVec x) (by rw [hrw]; exact List.mem_map_of_mem hx)) rfl i
  have hsplit := take_split (l := rows) hle
  have hne : rows.take r.at_ ≠ [] := by
    intro h0
    have := congrArg List.length h0
    rw [List.length_take, min_eq_left e3.le] at this
    simp at this
    omega
  have hmem : ∀ x ∈ rows.take r.at_ ++ (rows.take r'.at_).drop r.at_, ∀ i, a i ≤ x i ∧ x i ≤ b i := by
    intro x hx
    rw [← hsplit] at hx
    exact hrange x (List.mem_of_mem_take hx)
  have hl1 : (((rows.take r'.at_).drop r.at_).length : ℝ) = (r'.at_ : ℝ) - r.at_ := by
    rw [List.length_drop, List.length_take, min_eq_left f3.le, Nat.cast_sub hle]
  have hl2 : ((rows.take r.at_ ++ (rows.take r'.at_).drop r.at_).length : ℝ) = r'.at_ := by
    rw [← hsplit, List.length_take, min_eq_left f3.le]
  refine ⟨_, _, _, _, e1, f1, e2, f2, fun i => ?_, fun i j => ?_⟩
  · have := sampleMean_append hne hmem i
    rwa [← hsplit, hl1, List.length_take, min_eq_left f3.le] at this
  · have := sampleCov_append hne hmem i j
    rwa [← hsplit, hl1, List.length_take, min_eq_left f3.le] at this

/-- the sample covariance as a quadratic form -/
theorem sampleCovM_quad (x : Fin n → ℝ) (rows : List (Fin n → ℝ)) :
    star x ⬝ᵥ (sampleCovM rows *ᵥ x) =
      (rows.map fun r => (∑ i, x i * (r i - sampleMean rows i)) ^ 2).sum / ((rows.length : ℝ) - 1) := by
  have key : ∀ (l : List (Fin n → ℝ)) (c : Fin n → ℝ) (d : ℝ),
      ∑ i, x i * ∑ j, (l.map fun r => (r i - c i) * (r j - c j)).sum / d * x j =
        (l.map fun r => (∑ i, x i * (r i - c i)) ^ 2).sum / d := by
    intro l c d
    induction l with
    | nil => simp
    | cons a l ih =>
      simp only [List.map_cons, List.sum_cons, add_div]
      rw [← ih]
      simp only [add_mul, Finset.sum_add_distrib, mul_add]
      congr 1
      rw [sq, Finset.sum_mul_sum, Finset.sum_div]
      refine Finset.sum_congr rfl fun i _ => ?_
      rw [Finset.mul_sum, Finset.sum_div]
      refine Finset.sum_congr rfl fun j _ => ?_
      ring
  rw [← key]
  simp [dotProduct, mulVec, sampleCovM, sampleCov]

/-- the scatter about another point -/
theorem scatter_about (x c : Fin n → ℝ) {l : List (Fin n → ℝ)} (h : l ≠ []) :
    (l.map fun r => (∑ i, x i * (r i - c i)) ^ 2).sum =
      (l.map fun r => (∑ i, x i * (r i - sampleMean l i)) ^ 2).sum +
        l.length * (∑ i, x i * (sampleMean l i - c i)) ^ 2 := by
  have hexp : ∀ (l : List (Fin n → ℝ)) (d : Fin n → ℝ), (l.map fun r => (∑ i, x i * (r i - d i)) ^ 2).sum =
      (l.map fun r => (∑ i, x i * r i) ^ 2).sum - 2 * (∑ i, x i * d i) * (∑ i, x i * (l.map fun r => r i).sum)
        + l.length * (∑ i, x i * d i) ^ 2 := by
    intro l d
    induction l with
    | nil => simp
    | cons r l ih =>
      simp only [List.map_cons, List.sum_cons, List.length_cons, mul_add, mul_sub, Finset.sum_add_distrib,
        Finset.sum_sub_distrib] at ih ⊢
      rw [ih]
      push_cast
      ring
  have hm : ∑ i, x i * (l.map fun r => r i).sum = l.length * ∑ i, x i * sampleMean l i := by
    rw [Finset.mul_sum]
    refine Finset.sum_congr rfl fun i _ => ?_
    rw [sampleMean_mul h]; ring
  rw [hexp, hexp, hm]
  simp only [mul_sub, Finset.sum_sub_distrib]
  ring

/-- further rows only add to the scatter, so a positive definite sample covariance stays positive definite -/
theorem sampleCovM_posDef_append {l l' : List (Fin n → ℝ)} (h : (sampleCovM l).PosDef) :
    (sampleCovM (l ++ l')).PosDef := by
  refine .of_dotProduct_mulVec_pos (by
    rw [Matrix.IsHermitian, conjTranspose_eq_transpose_of_trivial]
    exact sampleCovM_symm _) fun x hx => ?_
  have h1 := h.dotProduct_mulVec_pos hx
  rw [sampleCovM_quad] at h1 ⊢
  have hl : 1 < l.length := by
    rcases Nat.lt_or_ge 1 l.length with hl | hl
    · exact hl
    · exfalso
      match l, hl with
      | [], _ => simp at h1
      | [r], _ => simp at h1
  have hne : l ≠ [] := by rintro rfl; simp at hl
  have hl1 : (0 : ℝ) < (l.length : ℝ) - 1 := by
    have : (1 : ℝ) < l.length := by exact_mod_cast hl
    linarith
  have hl2 : (0 : ℝ) < ((l ++ l').length : ℝ) - 1 := by
    rw [List.length_append]
    push_cast
    have : (0 : ℝ) ≤ l'.length := by positivity
    linarith
  refine div_pos ?_ hl2
  have h2 := (div_pos_iff_of_pos_right hl1).1 h1
  rw [List.map_append, List.sum_append, scatter_about x _ hne]
  have h3 : 0 ≤ (l'.map fun r => (∑ i, x i * (r i - sampleMean (l ++ l') i)) ^ 2).sum :=
    List.sum_nonneg fun y hy => by
      obtain ⟨r, _, rfl⟩ := List.mem_map.1 hy
      positivity
  have h4 : 0 ≤ (l.length : ℝ) * (∑ i, x i * (sampleMean l i - sampleMean (l ++ l') i)) ^ 2 := by positivity
  linarith

/-- **C132**, for the proposal.  All sampled parameters adapted, the adjustment `ε` positive: once the sample
covariance at an adaptation past the burn-in is positive definite, it is so at all later ones, and between
two of these, in iterations `p ≤ q`, the covariance `RᵀR` of the proposal moves by at most
`2 s² (b i - a i) (b j - a j) (q - p) / (q - 1)` in each entry, `s` the scale of the proposal. -/
theorem C132_proposal_settles {U : UserFuns XR N (nS flags) m} {specs : Fin N → ParamSpec XR}
    {opts : SimOpts XR} {extra : ExtraOpts XR (nS flags)} {ms : ModelSettings XR} {data : Data}
    {o : Obj XR flags m} (ho : Reachable U (newObj specs opts extra ms data) o)
    {G : Rng σ XR} {L : Lapack XR} {fuel : ℕ} {rng : σ} {out : RunOut XR σ flags m}
    (hrun : runSimulation U G L fuel o rng false = .ok out)
    {rows : List (Fin (nS flags) → ℝ)} {Q : Matrix (Fin (nS flags)) (Fin (nS flags)) ℝ} {ε s : ℝ}
    (h : AdaptiveRun L o out rows Q ε s) (hall : ∀ k, flags k = true → (o.specs k).adapt = true) (hε : 0 < ε)
    {a b : Fin (nS flags) → ℝ}
    (hlim : ∀ i k, ((List.finRange N).filter flags)[i.val]? = some k →
      (specs k).minimum = .fin (a i) ∧ (specs k).maximum = .fin (b i))
    {r r' : AdaptRecord XR (nS flags)} (hr : r ∈ out.final.adaptLog) (hr' : r' ∈ out.final.adaptLog)
    (hb : o.opts.burnintime ≤ r.at_) (hle : r.at_ ≤ r'.at_) (hpd : (sampleCovM (rows.take r.at_)).PosDef) :
    (sampleCovM (rows.take r'.at_)).PosDef ∧
    ∃ R R' : Matrix (Fin (nS flags)) (Fin (nS flags)) ℝ, r.after.R = finMx R ∧ r'.after.R = finMx R' ∧
      IsUnit R ∧ IsUnit R' ∧
      ∀ i j, |(R'ᵀ * R') i j - (Rᵀ * R) i j| ≤
        s ^ 2 * (2 * ((b i - a i) * (b j - a j)) * ((r'.at_ : ℝ) - r.at_) / ((r'.at_ : ℝ) - 1)) := by
  have hpd' : (sampleCovM (rows.take r'.at_)).PosDef := by
    rw [take_split hle]; exact sampleCovM_posDef_append hpd
  obtain ⟨R, e1, e2, e3, -⟩ := C16_adaptation_succeeds h hall hε hr hb
  obtain ⟨R', f1, f2, f3, -⟩ := C16_adaptation_succeeds h hall hε hr' (by omega)
  refine ⟨hpd', R, R', e1, f1, e2, f2, fun i j => ?_⟩
  obtain ⟨M, M', C, C', -, -, g1, g2, -, g3⟩ := C132_moments_settle ho h.sampled hrun h.initqcovn
    (fun row hrow => by
      rw [h.rows] at hrow
      obtain ⟨x, _, rfl⟩ := List.mem_map.1 hrow
      exact ⟨x, rfl⟩) hlim hr hr' hb hle
  have e4 := (C12_adapted_moments h.sampled hrun h.initqcovn h.rows r hr hb).2.1
  have f4 := (C12_adapted_moments h.sampled hrun h.initqcovn h.rows r' hr' (by omega)).2.1
  have inj : ∀ A B : Fin (nS flags) → Fin (nS flags) → ℝ, finMat A = finMat B → A i j = B i j := by
    intro A B hAB
    have := congrFun (congrFun hAB i) j
    simpa [finMat] using this
  have c1 := inj _ _ (Option.some.inj (g1.symm.trans e4))
  have c2 := inj _ _ (Option.some.inj (g2.symm.trans f4))
  rw [e3 hpd, f3 hpd', Matrix.smul_apply, Matrix.smul_apply, smul_eq_mul, smul_eq_mul, ← mul_sub, abs_mul,
    abs_of_nonneg (sq_nonneg s)]
  refine mul_le_mul_of_nonneg_left ?_ (sq_nonneg s)
  have := g3 i j
  rw [c1, c2] at this
  exact this

namespace XRun

/-- a flat target within the limits -/
noncomputable def flatUser : UserFuns XR 1 (nS XRun.flags) 1 where
  style1 := true
  sosFun _ _ := .ok fun _ => .fin 0
  priorFun _ _ _ := .fin 0

/-- five rows, adaptations in the iterations 2 and 4 -/
noncomputable def twoAdaptations : OptArgs XR := { nsimu := 5, adaptint := some 2, method := .am }

theorem flat_run : ∃ (out : RunOut XR Unit XRun.flags 1) (rows : _),
    runSimulation flatUser XRun.rng exactLapack 0 (XRun.obj twoAdaptations) () false = .ok out ∧
    AdaptiveRun exactLapack (XRun.obj twoAdaptations) out rows 1 1 (24 / 10) ∧
    (sampleCovM (rows.take 2)).PosDef := by
  obtain ⟨⟨o1, I, s0⟩, h⟩ := setup_okU flatUser (fun v => by simp [flatUser]) exactLapack twoAdaptations (by decide) rfl
    true 1 1 (some (.variances 1 fun _ => .fin 1)) (.inr (.inl ⟨_, rfl⟩)) (by rintro (h | h) <;> cases h)
  have h : setupSimulator flatUser exactLapack (XRun.obj twoAdaptations) () false = .ok (o1, I, s0) := h
  have hst := (setup_fresh h).1
  obtain rfl := (setup_fresh h).2.2.2.2.2.2.2.1 rfl
  have hcov := initializeSimulation_cov (setupSimulator_init h)
  obtain ⟨_, ⟨R, hR, _⟩, _⟩ := initCovState_ok hcov
  have hq : I.cov.qcov = finMx 1 := by rw [setupR hR, Matrix.diagonal_one]
  obtain ⟨R0, hR0, hRR⟩ := initial_factor exactLapack_ok h rfl hq PosDef.one
  have hx : ExactInputs rng exactLapack (obj twoAdaptations) := {
    lapack := exactLapack_ok
    draws := fun _ => ⟨fun _ => 1, rfl⟩
    adjust := ⟨1, rfl⟩
    burnin := ⟨10, rfl, by norm_num⟩
    drscale := ⟨[5], rfl, by simp⟩
    noRam := rfl
    weight := .inl rfl
    scale := ⟨_, .inl ⟨rfl, rfl⟩⟩
    RDR := nofun }
  rcases C65_exact_run_returns (fuel := 0) hx h (by change (1 : ℤ) < 5; decide)
    (by decide) (fun v => by simp [flatUser]) (fun h => absurd h (by change ¬ (1 : ℤ) < 1; decide))
    (show data.n ≠ [] by decide) (t := fun _ => 0) (by rw [hst.init.theta]; rfl) hq PosDef.one with
    ⟨out, hrun, hfin, _⟩ | ⟨_, h2, _⟩
  swap
  · rw [hst.init.opts, hst.opts, hst.ms] at h2
    have h2 : false = true := h2
    cases h2
  have hinit : out.init = I := by
    obtain ⟨p1, p2, p3, r1, r2, r3, r4, r5⟩ := runSimulation_ok hrun
    rw [h] at r1
    cases r1
    exact r4
  obtain ⟨rows, hrw⟩ : ∃ rows : List (Fin (nS XRun.flags) → ℝ), out.results.chain = rows.map finVec := by
    generalize out.results.chain = l at hfin
    induction l with
    | nil => exact ⟨[], rfl⟩
    | cons x l ih =>
      obtain ⟨y, hy⟩ := hfin x (by simp)
      obtain ⟨ys, hys⟩ := ih fun r hr => hfin r (by simp [hr])
      exact ⟨y :: ys, by rw [hy, hys]; rfl⟩
  have hsub : ∀ a b : Fin (nS XRun.flags), a = b := by
    rw [XRun.nS_flags]; exact fun a b => Subsingleton.elim a b
  refine ⟨out, rows, hrun, ⟨exactLapack_ok, ⟨_, _, _, _, hrun⟩, by decide, rfl, rfl, hrw, by rw [hinit, hq],
    Matrix.transpose_one, rfl, .inl ⟨rfl, by rw [XRun.nS_flags]; simp⟩⟩, ?_⟩
  -- the first proposal is one step away and accepted
  have hnan : ∀ k, PyFloat.isnan (XRun.specs true k).theta0 = false := fun k => rfl
  have hnm : (((List.finRange 1).filter XRun.flags).map fun k => (XRun.specs true k).name).Nodup := by
    decide
  obtain ⟨k0, mu, sigma, hmu, g1, g2, g3, g4⟩ := C72_decisions .start hnm hnan hrun
  obtain ⟨c1, ⟨row0, c2, c3⟩, ⟨c4, c5⟩, -⟩ := C02_chain_records_moves rfl hrun
  have c1 : (out.results.chain.length : ℤ) = 5 := c1
  have g2 : (out.final.moveLog.length : ℤ) + 1 = 5 := g2
  obtain rfl : k0 = 0 := by omega
  obtain ⟨r, hr⟩ : ∃ r, out.final.moveLog[0]? = some r := ⟨_, List.getElem?_eq_getElem (by omega)⟩
  obtain ⟨ts, hts⟩ : ∃ r, out.final.trace[0]? = some r := ⟨_, List.getElem?_eq_getElem (by omega)⟩
  obtain ⟨f1, f2, f3, f4, f5, f6, t, ts', rfl, t1, -, t2⟩ := g4 0 r ts hr hts
  have i0 : Fin (nS XRun.flags) := ⟨0, by decide⟩
  have hrow0 : row0 = finVec fun _ => 0 := by
    funext i
    have e : (List.ofFn row0)[i.val]? = some (row0 i) := by simp
    rw [c3] at e
    have e2 : (((List.finRange 1).filter XRun.flags).map fun k => ((XRun.obj twoAdaptations).specs k).theta0) =
      [XR.fin 0] := rfl
    rw [e2, hsub i ⟨0, by decide⟩] at e
    rw [hsub i ⟨0, by decide⟩]
    exact (Option.some.inj e).symm
  rw [Nat.zero_add, c2, hrow0] at f1
  have f1 := Option.some.inj f1
  have hno : out.final.adaptLog.filter (fun a => decide (a.at_ ≤ 0)) = [] := by
    rw [List.filter_eq_nil_iff]
    intro a ha
    have := (run_adapt hrun a ha).pos
    simp only [decide_eq_true_eq]
    omega
  rw [hno, hinit, hR0] at f6
  have f6 : r.R = finMx R0 := f6
  have hR1 : ∀ k i, R0 k i * R0 k i = 1 := by
    intro k i
    have e := congrFun (congrFun hRR i) i
    rw [Matrix.one_apply_eq, Matrix.mul_apply] at e
    have hu : (Finset.univ : Finset (Fin (nS XRun.flags))) = {k} := by
      ext x; simp [hsub x k]
    rw [hu, Finset.sum_singleton, Matrix.transpose_apply] at e
    exact e
  have hth : t.theta = finVec fun i => R0 i i := by
    funext i
    rw [t1 i, ← f1, f6]
    have hu : (Finset.univ : Finset (Fin (nS XRun.flags))) = {i} := by
      ext x; simp [hsub x i]
    simp [XRun.rng, finMx, finMat, finVec, XR.vsum_fin, hu]
  have hlim : InLimits XRun.flags (XRun.specs true) t.theta := by
    intro i k _
    rw [hth]
    have e := hR1 i i
    have e1 : R0 i i ≤ 10 := by nlinarith
    have e2 : -10 ≤ R0 i i := by nlinarith
    simp [finVec, XRun.specs, e1, e2]
  obtain ⟨v, ss, -, hs, hacc⟩ := t2 hlim
  have hzero : ∀ v ss, SosValue XRun.flatUser v ss → ss = fun _ => XR.fin 0 := by
    intro v ss hs
    unfold SosValue XRun.flatUser at hs
    simp only [if_true, reduceCtorEq, false_and, or_false] at hs
    rw [← Except.ok.inj hs]
  obtain ⟨ss0, v0, e1, -, e2⟩ := (C03_sums_of_squares_belong_to_rows .start hrun).2 _ _ (c2.trans (by rw [hrow0]))
  rw [Nat.zero_add] at f2
  rw [f2] at e1
  cases e1
  have hsig : r.before.sigma2 = fun _ => .fin 1 := by
    rw [f5 (.inr rfl), hinit]
    obtain ⟨ms1, d1, d2, d3⟩ := hst.init.ms
    exact XRun.settings_sigma2 d1 d2 d3
  have htrue : t.accepted = true := by
    rw [hacc, hzero _ _ hs, hzero _ _ e2, hsig, f3]
    change PyFloat.lt (PyFloat.log (XR.fin (1 / 2))) (logPosterior (fun i => XR.fin ((fun _ => 0 : Fin 1 → ℝ) i))
      (fun i => XR.fin ((fun _ => 1 : Fin 1 → ℝ) i)) (XR.fin 0) - logPosterior (fun i => XR.fin ((fun _ => 0 : Fin 1 → ℝ) i))
      (fun i => XR.fin ((fun _ => 1 : Fin 1 → ℝ) i)) (XR.fin 0)) = true
    rw [logPosterior_fin (fun _ => one_pos), XR.log_fin (by norm_num), XR.fin_sub, XR.fin_lt]
    simp only [decide_eq_true_eq, sub_self]
    exact Real.log_neg (by norm_num) (by norm_num)
  obtain ⟨-, prev, row, -, c6, c7⟩ := c5 0 _ hts
  have hrow : row = t.theta := by
    rcases c7 with ⟨_, c7⟩ | ⟨pre, t', c7, c8, c9, c10, c11⟩
    · rw [c7 t (by simp)] at htrue; cases htrue
    · cases pre with
      | nil => simp only [List.nil_append, List.cons.injEq] at c7; rw [c10, c7.1]
      | cons y ys =>
        simp only [List.cons_append, List.cons.injEq] at c7
        have := c11 y (by simp)
        rw [← c7.1, htrue] at this
        cases this
  rw [hrw, List.getElem?_map] at c2 c6
  obtain ⟨x0, d1, d2⟩ := Option.map_eq_some_iff.1 c2
  obtain ⟨x1, d3, d4⟩ := Option.map_eq_some_iff.1 c6
  rw [hrow0] at d2
  rw [hrow, hth] at d4
  have inj : ∀ A B : Fin (nS XRun.flags) → ℝ, finVec A = finVec B → A = B := by
    intro A B hAB
    funext i
    have := congrFun hAB i
    simpa [finVec] using this
  have d2 := inj _ _ d2
  have d4 := inj _ _ d4
  have htake : rows.take 2 = [x0, x1] := by
    rw [List.take_add_one, List.take_add_one, d1, d3]; rfl
  have e : sampleCovM (rows.take 2) = (1 / 2 : ℝ) • (1 : Matrix _ _ ℝ) := by
    rw [htake]
    ext i j
    rw [hsub i j, Matrix.smul_apply, Matrix.one_apply_eq]
    have := hR1 j j
    simp only [sampleCovM, Matrix.of_apply, sampleCov, sampleMean, d2, d4, List.map_cons, List.map_nil,
      List.sum_cons, List.sum_nil, List.length_cons, List.length_nil, smul_eq_mul]
    push_cast
    linear_combination (1 / 2) * this
  rw [e]
  exact PosDef.one.smul (by norm_num)

end XRun

/-- the hypotheses of `C132_moments_settle` and `C132_proposal_settles` can be met: adaptations in the
iterations 2 and 4 -/
example : ∃ (out : RunOut XR Unit XRun.flags 1) (rows : _) (r r' : AdaptRecord XR (nS XRun.flags)),
    runSimulation XRun.flatUser XRun.rng exactLapack 0 (XRun.obj XRun.twoAdaptations) () false = .ok out ∧
    AdaptiveRun exactLapack (XRun.obj XRun.twoAdaptations) out rows 1 1 (24 / 10) ∧
    (∀ (i : ℕ) k, ((List.finRange 1).filter XRun.flags)[i]? = some k →
      (XRun.specs true k).minimum = .fin (-10) ∧ (XRun.specs true k).maximum = .fin 10) ∧
    r ∈ out.final.adaptLog ∧ r' ∈ out.final.adaptLog ∧ r.at_ = 2 ∧ r'.at_ = 4 ∧
    (sampleCovM (rows.take r.at_)).PosDef ∧
    ∃ R R' : Matrix (Fin (nS XRun.flags)) (Fin (nS XRun.flags)) ℝ, r.after.R = finMx R ∧ r'.after.R = finMx R' ∧
      ∀ i j, |(R'ᵀ * R') i j - (Rᵀ * R) i j| ≤
        (24 / 10) ^ 2 * (2 * ((10 - -10) * (10 - -10)) * ((4 : ℝ) - 2) / (4 - 1)) := by
  obtain ⟨out, rows, h1, h2, h3⟩ := XRun.flat_run
  have hs := (C14_adaptation_schedule_partial h1).1 (by decide)
  have hk : ∀ j : ℕ, 1 ≤ j → j < 5 → 2 ∣ j → ∃ r ∈ out.final.adaptLog, r.at_ = j := by
    intro j a1 a2 a3
    have := (hs.2 j).2 ⟨a1, by change (j : ℤ) < 5; omega, by change (2 : ℤ) ∣ j; exact_mod_cast a3⟩
    rw [← adaptLog_at h1] at this
    obtain ⟨r, hr, hj⟩ := List.mem_map.1 this
    exact ⟨r, hr, hj⟩
  obtain ⟨r, hr, hj⟩ := hk 2 (by decide) (by decide) (by decide)
  obtain ⟨r', hr', hj'⟩ := hk 4 (by decide) (by decide) (by decide)
  have hlim : ∀ (i : ℕ) k, ((List.finRange 1).filter XRun.flags)[i]? = some k →
      (XRun.specs true k).minimum = .fin (-10) ∧ (XRun.specs true k).maximum = .fin 10 := fun i k _ => ⟨rfl, rfl⟩
  obtain ⟨-, R, R', e1, e2, -, -, e3⟩ := C132_proposal_settles (a := fun _ => -10) (b := fun _ => 10) .start h1 h2
    (fun k _ => rfl) one_pos (fun i k hk => hlim i k hk) hr hr' (by change (0 : ℤ) ≤ _; positivity) (by omega)
    (by rw [hj]; exact h3)
  refine ⟨out, rows, r, r', h1, h2, hlim, hr, hr', hj, hj', by rw [hj]; exact h3, R, R', e1, e2, fun i j => ?_⟩
  have := e3 i j
  rw [hj, hj'] at this
  exact_mod_cast this

end Verif
