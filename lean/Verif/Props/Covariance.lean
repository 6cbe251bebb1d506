import Verif.Lemmas.FactorsXR
import Verif.Props.Adaptation

/-! # The proposal covariance of adaptive runs: C15, C16 -/

set_option linter.unusedSectionVars false

namespace Verif
open Matrix
variable {σ : Type} {n N m : ℕ} {flags : Fin N → Bool}

/-- sample covariance as a matrix -/
noncomputable def sampleCovM (rows : List (Fin n → ℝ)) : Matrix (Fin n) (Fin n) ℝ :=
  Matrix.of (sampleCov rows)

theorem sampleCovM_symm (rows : List (Fin n → ℝ)) : (sampleCovM rows).IsSymm := by
  ext i j
  simp only [sampleCovM, Matrix.transpose_apply, Matrix.of_apply, sampleCov]
  congr 3
  funext r
  rw [mul_comm]

/-- Setting of the statements below: a completed run from scratch with `initqcovn` not set,
covariance taken from the chain (not `ram`), exact arithmetic, finite chain `rows`, finite symmetric
initial covariance `Q`, adjustment `ε` and scale `s`. -/
structure AdaptiveRun (L : Lapack XR) (o : Obj XR flags m) (out : RunOut XR σ flags m)
    (rows : List (Fin (nS flags) → ℝ)) (Q : Matrix (Fin (nS flags)) (Fin (nS flags)) ℝ)
    (ε s : ℝ) : Prop where
  lapack : ExactLapack L
  run : ∃ (U : UserFuns XR N (nS flags) m) (G : Rng σ XR) (fuel : ℕ) (rng : σ),
    runSimulation U G L fuel o rng false = .ok out
  sampled : 0 < nS flags
  initqcovn : o.opts.initqcovn = none
  notRam : o.opts.doram = false
  rows : out.results.chain = rows.map finVec
  qcov : out.init.cov.qcov = finMx Q
  symm : Q.IsSymm
  adjust : o.extra.qcovAdjust = .fin ε
  scale : IsScale o.opts.adascale (nS flags) s

/-- The factor after an adaptation, as the code computes it. -/
theorem adapted_factor_eq {L : Lapack XR} {o : Obj XR flags m} {out : RunOut XR σ flags m}
    {rows : List (Fin (nS flags) → ℝ)} {Q : Matrix (Fin (nS flags)) (Fin (nS flags)) ℝ} {ε s : ℝ}
    (h : AdaptiveRun L o out rows Q ε s) {r : AdaptRecord XR (nS flags)}
    (hr : r ∈ out.final.adaptLog) (hb : o.opts.burnintime ≤ r.at_) :
    0 < s ∧ r.after.R = checkForSingular L (finMx (mixedCov (noAdaptOf flags o.specs) Q
      (sampleCovM (rows.take r.at_)))) r.before.R (.fin ε) (.fin s) := by
  obtain ⟨U, G, fuel, rng, hrun⟩ := h.run
  have hs := run_adapt hrun r hr
  obtain ⟨seg, hspec⟩ := hs.spec hb
  obtain ⟨upcov, hup, hR⟩ := hspec.factor
  obtain ⟨o1, I, s0, hst, hI, _, hset, _, _, hinit⟩ := run_cov hrun
  obtain ⟨hsc, _⟩ := initCovState_ok hinit
  have hada : I.opts.adascale = o.opts.adascale := by rw [hst.init.opts, hst.opts]; rfl
  have hram : I.opts.doram = o.opts.doram := by rw [hst.init.opts, hst.opts]; rfl
  rw [hada] at hsc
  obtain ⟨e1, hpos⟩ := checkAdascale_fin h.scale hsc
  obtain ⟨_, hcc, _⟩ := C12_adapted_moments h.sampled hrun h.initqcovn h.rows r hr hb
  refine ⟨hpos, ?_⟩
  have hup' : upcov = finMx (mixedCov (noAdaptOf flags o.specs) Q (sampleCovM (rows.take r.at_))) := by
    unfold newCovariance at hup
    rw [if_neg (by
      change ¬ (out.init.opts.doram = true)
      rw [hI, hram, h.notRam]; simp), hcc] at hup
    obtain ⟨cc, h1, h2⟩ := bind_ok.1 hup
    cases h1
    rw [hs.qcov, h.qcov, hs.noAdapt] at h2
    rw [← Except.ok.inj h2, ← updateCovFromCovchain_fin]
    rfl
  rw [hR, hup', hs.qcovScale, hI, e1]
  congr 1
  exact h.adjust

/-- The factor after an adaptation, in all cases. -/
theorem adapted_factor {L : Lapack XR} {o : Obj XR flags m} {out : RunOut XR σ flags m}
    {rows : List (Fin (nS flags) → ℝ)} {Q : Matrix (Fin (nS flags)) (Fin (nS flags)) ℝ} {ε s : ℝ}
    (h : AdaptiveRun L o out rows Q ε s) {r : AdaptRecord XR (nS flags)}
    (hr : r ∈ out.final.adaptLog) (hb : o.opts.burnintime ≤ r.at_) :
    ∃ M : Matrix (Fin (nS flags)) (Fin (nS flags)) ℝ,
      M = mixedCov (noAdaptOf flags o.specs) Q (sampleCovM (rows.take r.at_)) ∧
      0 < s ∧
      (M.PosDef → ∃ R, r.after.R = finMx R ∧ Rᵀ * R = s ^ 2 • M) ∧
      (¬ M.PosDef → (M + ε • 1).PosDef → ∃ R, r.after.R = finMx R ∧ Rᵀ * R = s ^ 2 • (M + ε • 1)) ∧
      (¬ M.PosDef → ¬ (M + ε • 1).PosDef → r.after.R = r.before.R) := by
  obtain ⟨hpos, hR'⟩ := adapted_factor_eq h hr hb
  refine ⟨_, rfl, hpos, ?_⟩
  rw [hR']
  exact checkForSingular_exact h.lapack (mixedCov_symm h.symm (sampleCovM_symm _)) _ ε s

/-- **C15**, the part that holds.  At every adaptation after the burn-in that needs no adjustment the
new proposal covariance `RᵀR` is symmetric; up to the scale `s²` its entries for parameters
excluded from adaptation are those of the initial covariance, and all other entries are those of
the sample covariance of the chain so far.  (Missing: the scale.  The entries of excluded
parameters should not be multiplied by `s²`, see `C15_unscaled_refuted`.) -/
theorem C15_fixed_entries_partial {L : Lapack XR} {o : Obj XR flags m} {out : RunOut XR σ flags m}
    {rows : List (Fin (nS flags) → ℝ)} {Q : Matrix (Fin (nS flags)) (Fin (nS flags)) ℝ} {ε s : ℝ}
    (h : AdaptiveRun L o out rows Q ε s) {r : AdaptRecord XR (nS flags)}
    (hr : r ∈ out.final.adaptLog) (hb : o.opts.burnintime ≤ r.at_)
    (hpd : (mixedCov (fun i => !(o.specs (parindOf flags i)).adapt) Q
      (sampleCovM (rows.take r.at_))).PosDef) :
    ∃ R : Matrix (Fin (nS flags)) (Fin (nS flags)) ℝ, r.after.R = finMx R ∧ (Rᵀ * R).IsSymm ∧
      (∀ i j, (o.specs (parindOf flags i)).adapt = false ∨ (o.specs (parindOf flags j)).adapt = false →
        (Rᵀ * R) i j = s ^ 2 * Q i j) ∧
      (∀ i j, (o.specs (parindOf flags i)).adapt = true → (o.specs (parindOf flags j)).adapt = true →
        (Rᵀ * R) i j = s ^ 2 * sampleCov (rows.take r.at_) i j) := by
  obtain ⟨M, hM, hs, h1, _⟩ := adapted_factor h hr hb
  subst hM
  obtain ⟨R, e1, e2⟩ := h1 hpd
  refine ⟨R, e1, ?_, fun i j hij => ?_, fun i j hi hj => ?_⟩
  · rw [Matrix.IsSymm, transpose_mul, transpose_transpose]
  · rw [e2, Matrix.smul_apply, smul_eq_mul, mixedCov, Matrix.of_apply, if_pos]
    rcases hij with h | h <;> simp [noAdaptOf, h]
  · rw [e2, Matrix.smul_apply, smul_eq_mul, mixedCov, Matrix.of_apply, if_neg]
    · rfl
    · simp [noAdaptOf, hi, hj]

/-- **C15** is false as stated, in every run with the default scale: at each adaptation (that needs
no adjustment) the proposal variance of a parameter excluded from adaptation is no longer its
initial one, because the kept entry is multiplied by `2.4²/n`, which is never one. -/
theorem C15_unscaled_refuted {L : Lapack XR} {o : Obj XR flags m} {out : RunOut XR σ flags m}
    {rows : List (Fin (nS flags) → ℝ)} {Q : Matrix (Fin (nS flags)) (Fin (nS flags)) ℝ} {ε s : ℝ}
    (h : AdaptiveRun L o out rows Q ε s) (hada : o.opts.adascale = none)
    {r : AdaptRecord XR (nS flags)}
    (hr : r ∈ out.final.adaptLog) (hb : o.opts.burnintime ≤ r.at_)
    (hpd : (mixedCov (fun i => !(o.specs (parindOf flags i)).adapt) Q
      (sampleCovM (rows.take r.at_))).PosDef)
    {i : Fin (nS flags)} (hi : (o.specs (parindOf flags i)).adapt = false) :
    ∃ R : Matrix (Fin (nS flags)) (Fin (nS flags)) ℝ, r.after.R = finMx R ∧ (Rᵀ * R) i i ≠ Q i i := by
  obtain ⟨R, e1, _, e2, _⟩ := C15_fixed_entries_partial h hr hb hpd
  refine ⟨R, e1, ?_⟩
  rw [e2 i i (.inl hi)]
  have hQ : 0 < Q i i := by
    have := hpd.diag_pos (i := i)
    rwa [mixedCov, Matrix.of_apply, if_pos (by simp [hi])] at this
  have hs : s ^ 2 * nS flags = 576 / 100 := by
    rcases h.scale with ⟨_, rfl⟩ | ⟨h', _⟩
    · have : (0 : ℝ) < nS flags := by exact_mod_cast h.sampled
      rw [div_pow, Real.sq_sqrt this.le]
      field_simp
      norm_num
    · rw [hada] at h'; cases h'
  intro heq
  have hs1 : s ^ 2 = 1 := by
    have : (s ^ 2 - 1) * Q i i = 0 := by linarith
    rcases mul_eq_zero.1 this with h | h
    · linarith
    · exact absurd h hQ.ne'
  rw [hs1, one_mul] at hs
  have h6 : (nS flags : ℝ) * 100 = 576 := by rw [hs]; norm_num
  have : nS flags * 100 = 576 := by exact_mod_cast h6
  omega

theorem sampleCovM_posSemidef (rows : List (Fin n → ℝ)) : (sampleCovM rows).PosSemidef := by
  refine .of_dotProduct_mulVec_nonneg ?_ fun x => ?_
  · rw [Matrix.IsHermitian, conjTranspose_eq_transpose_of_trivial]
    exact sampleCovM_symm rows
  · have key : ∀ (l : List (Fin n → ℝ)) (c : Fin n → ℝ) (d : ℝ),
        ∑ i, x i * ∑ j, (l.map fun r => (r i - c i) * (r j - c j)).sum / d * x j =
          (l.map fun r => (∑ i, x i * (r i - c i)) ^ 2).sum / d := by
      intro l c d
      induction l with
      | nil => simp
      | cons a l ih =>
        simp only [List.map_cons, List.sum_cons, add_div]
        rw [← ih]
        simp only [add_mul, Finset.sum_add_distrib, mul_add]
        congr 1
        rw [sq, Finset.sum_mul_sum, Finset.sum_div]
        refine Finset.sum_congr rfl fun i _ => ?_
        rw [Finset.mul_sum, Finset.sum_div]
        refine Finset.sum_congr rfl fun j _ => ?_
        ring
    have e : star x ⬝ᵥ (sampleCovM rows *ᵥ x) =
        (rows.map fun r => (∑ i, x i * (r i - sampleMean rows i)) ^ 2).sum / (rows.length - 1) := by
      rw [← key]
      simp [dotProduct, mulVec, sampleCovM, sampleCov]
    rw [e]
    cases rows with
    | nil => simp
    | cons a l =>
      refine div_nonneg (List.sum_nonneg ?_) (by simp)
      intro y hy
      obtain ⟨r, _, rfl⟩ := List.mem_map.1 hy
      positivity

/-- **C16.** When all sampled parameters are adapted and the adjustment `ε` is positive, every
adaptation after the burn-in succeeds: the new factor is finite and nonsingular, and `RᵀR` is `s²`
times the sample covariance of the chain so far, or `s²` times that covariance plus `ε` on the
diagonal; the latter only if the sample covariance is not positive definite. -/
theorem C16_adaptation_succeeds {L : Lapack XR} {o : Obj XR flags m} {out : RunOut XR σ flags m}
    {rows : List (Fin (nS flags) → ℝ)} {Q : Matrix (Fin (nS flags)) (Fin (nS flags)) ℝ} {ε s : ℝ}
    (h : AdaptiveRun L o out rows Q ε s) (hall : ∀ k, flags k = true → (o.specs k).adapt = true)
    (hε : 0 < ε) {r : AdaptRecord XR (nS flags)}
    (hr : r ∈ out.final.adaptLog) (hb : o.opts.burnintime ≤ r.at_) :
    ∃ R : Matrix (Fin (nS flags)) (Fin (nS flags)) ℝ, r.after.R = finMx R ∧ IsUnit R ∧
      ((sampleCovM (rows.take r.at_)).PosDef → Rᵀ * R = s ^ 2 • sampleCovM (rows.take r.at_)) ∧
      (¬ (sampleCovM (rows.take r.at_)).PosDef →
        Rᵀ * R = s ^ 2 • (sampleCovM (rows.take r.at_) + ε • 1)) := by
  obtain ⟨M, hM, hs, h1, h2, _⟩ := adapted_factor h hr hb
  have hM' : M = sampleCovM (rows.take r.at_) := by
    rw [hM]
    ext i j
    simp [mixedCov, noAdaptOf, hall _ (flags_parindOf _)]
  subst hM'
  have hp := posDef_add_smul_one (sampleCovM_posSemidef (rows.take r.at_)) hε
  by_cases hpd : (sampleCovM (rows.take r.at_)).PosDef
  · obtain ⟨R, e1, e2⟩ := h1 hpd
    exact ⟨R, e1, isUnit_of_gram e2 (isUnit_smul_posDef hpd hs), fun _ => e2, fun hn => absurd hpd hn⟩
  · obtain ⟨R, e1, e2⟩ := h2 hpd hp
    exact ⟨R, e1, isUnit_of_gram e2 (isUnit_smul_posDef hp hs), fun hn => absurd hn hpd, fun _ => e2⟩

/-- **C16**, failure: with parameters excluded from adaptation the mixed covariance may be indefinite;
if it and its adjustment both are not positive definite the factor stays as it was. -/
theorem C16_failure_keeps {L : Lapack XR} {o : Obj XR flags m} {out : RunOut XR σ flags m}
    {rows : List (Fin (nS flags) → ℝ)} {Q : Matrix (Fin (nS flags)) (Fin (nS flags)) ℝ} {ε s : ℝ}
    (h : AdaptiveRun L o out rows Q ε s) {r : AdaptRecord XR (nS flags)}
    (hr : r ∈ out.final.adaptLog) (hb : o.opts.burnintime ≤ r.at_)
    (h1 : ¬ (mixedCov (fun i => !(o.specs (parindOf flags i)).adapt) Q
      (sampleCovM (rows.take r.at_))).PosDef)
    (h2 : ¬ (mixedCov (fun i => !(o.specs (parindOf flags i)).adapt) Q
      (sampleCovM (rows.take r.at_)) + ε • 1).PosDef) :
    r.after.R = r.before.R := by
  obtain ⟨M, hM, _, _, _, h3⟩ := adapted_factor h hr hb
  subst hM
  exact h3 h1 h2

/-- A run of three rows that meets the hypotheses of the theorems above; the parameter is adapted
(`ad`) or not. -/
theorem XRun.adaptiveRun (ad : Bool) : ∃ (out : RunOut XR Unit XRun.flags 1) (rows : _),
    AdaptiveRun exactLapack (XRun.obj XRun.args ad) out rows 1 1 (24 / 10) ∧
    ∃ r ∈ out.final.adaptLog, (XRun.obj XRun.args ad).opts.burnintime ≤ r.at_ := by
  obtain ⟨out, rows, h1, h2, h3, h4⟩ := XRun.finite_run exactLapack ad zero_le_one 1
  have hns : nS XRun.flags = 1 := XRun.nS_flags
  have hsub : ∀ a b : Fin (nS XRun.flags), a = b := by
    rw [hns]; exact fun a b => Subsingleton.elim a b
  refine ⟨out, rows, ⟨exactLapack_ok, ⟨_, _, _, _, h1⟩, by decide, rfl, rfl, h2, ?_, ?_, rfl, ?_⟩, ?_⟩
  · rw [h4]
    unfold finMx
    congr 1
    funext i j
    rw [hsub i j, Matrix.one_apply_eq]
  · exact Matrix.transpose_one
  · left
    refine ⟨rfl, ?_⟩
    rw [hns]; simp
  · obtain ⟨r, hr⟩ := List.exists_mem_of_ne_nil _ h3
    exact ⟨r, hr, by change (0 : ℤ) ≤ _; positivity⟩

/-- the hypotheses of `C15_fixed_entries_partial` and `C15_unscaled_refuted` can be met -/
example : ∃ (out : RunOut XR Unit XRun.flags 1) (rows : _), AdaptiveRun exactLapack (XRun.obj XRun.args false) out rows 1 1 (24 / 10) ∧
    (XRun.obj XRun.args false).opts.adascale = none ∧
    ∃ r ∈ out.final.adaptLog, (XRun.obj XRun.args false).opts.burnintime ≤ r.at_ ∧
      (mixedCov (fun i => !((XRun.obj XRun.args false).specs (parindOf XRun.flags i)).adapt) 1
        (sampleCovM (rows.take r.at_))).PosDef := by
  obtain ⟨out, rows, h1, r, hr, hb⟩ := XRun.adaptiveRun false
  refine ⟨out, rows, h1, rfl, r, hr, hb, ?_⟩
  have : mixedCov (fun i => !((XRun.obj XRun.args false).specs (parindOf XRun.flags i)).adapt) 1
      (sampleCovM (rows.take r.at_)) = 1 := by
    ext i j
    simp [mixedCov, XRun.obj, newObj, XRun.specs]
  rw [this]
  exact .one

/-- the hypotheses of `C16_adaptation_succeeds` can be met -/
example : ∃ (out : RunOut XR Unit XRun.flags 1) (rows : _), AdaptiveRun exactLapack (XRun.obj XRun.args true) out rows 1 1 (24 / 10) ∧
    (∀ k, XRun.flags k = true → ((XRun.obj XRun.args true).specs k).adapt = true) ∧
    ∃ r ∈ out.final.adaptLog, (XRun.obj XRun.args true).opts.burnintime ≤ r.at_ := by
  obtain ⟨out, rows, h1, r, hr, hb⟩ := XRun.adaptiveRun true
  exact ⟨out, rows, h1, fun k _ => rfl, r, hr, hb⟩

/-- the hypotheses of `C16_failure_keeps` can be met: a parameter with variance zero excluded from
adaptation, no adjustment -/
example : ∃ (out : RunOut XR Unit XRun.flags 1) (rows : _),
    AdaptiveRun exactLapack (XRun.obj XRun.args false 0 0) out rows 0 0 (24 / 10) ∧
    ∃ r ∈ out.final.adaptLog, (XRun.obj XRun.args false 0 0).opts.burnintime ≤ r.at_ ∧
      (¬ (mixedCov (fun i => !((XRun.obj XRun.args false 0 0).specs (parindOf XRun.flags i)).adapt) 0
        (sampleCovM (rows.take r.at_))).PosDef) ∧
      ¬ (mixedCov (fun i => !((XRun.obj XRun.args false 0 0).specs (parindOf XRun.flags i)).adapt) 0
        (sampleCovM (rows.take r.at_)) + (0 : ℝ) • 1).PosDef := by
  obtain ⟨out, rows, h1, h2, h3, h4⟩ := XRun.finite_run exactLapack false le_rfl 0
  have hns : nS XRun.flags = 1 := XRun.nS_flags
  have hrun : AdaptiveRun exactLapack (XRun.obj XRun.args false 0 0) out rows 0 0 (24 / 10) := by
    refine ⟨exactLapack_ok, ⟨_, _, _, _, h1⟩, by decide, rfl, rfl, h2, ?_, ?_, rfl, ?_⟩
    · rw [h4]; rfl
    · exact Matrix.transpose_zero
    · left
      refine ⟨rfl, ?_⟩
      rw [hns]; simp
  obtain ⟨r, hr⟩ := List.exists_mem_of_ne_nil _ h3
  refine ⟨out, rows, hrun, r, hr, by change (0 : ℤ) ≤ _; positivity, ?_⟩
  have e : mixedCov (fun i => !((XRun.obj XRun.args false 0 0).specs (parindOf XRun.flags i)).adapt) 0
      (sampleCovM (rows.take r.at_)) = 0 := by
    ext i j
    simp [mixedCov, XRun.obj, newObj, XRun.specs]
  have h0 : ¬ (0 : Matrix (Fin (nS XRun.flags)) (Fin (nS XRun.flags)) ℝ).PosDef := fun h => by
    have := h.diag_pos (i := ⟨0, by decide⟩)
    simp at this
  rw [e]
  exact ⟨h0, by rw [zero_smul, add_zero]; exact h0⟩

end Verif
