import Verif.Lemmas.AdaptRun
import Verif.Lemmas.FactorsXR
import Verif.Props.Progress
import Verif.Props.Continue
import Mathlib.Analysis.InnerProductSpace.PiL2

/-! # C20: robust adaptation (method `ram`) -/

set_option linter.unusedSectionVars false

namespace Verif
open Matrix
variable {σ : Type} {n N m : ℕ} {flags : Fin N → Bool}

/-- Euclidean norm -/
noncomputable def enorm2 (u : Fin n → ℝ) : ℝ := Real.sqrt (u ⬝ᵥ u)

/-- direction in parameter space of the proposal drawn with the normal vector `u` -/
noncomputable def ramDir (R : Matrix (Fin n) (Fin n) ℝ) (u : Fin n → ℝ) : Fin n → ℝ :=
  Rᵀ *ᵥ ((enorm2 u)⁻¹ • u)

/-- factor of the rank-one term at iteration `i` -/
noncomputable def ramCoef (i : ℕ) (eta target a : ℝ) : ℝ := 1 / (i : ℝ) ^ eta * (min 1 a - target)

theorem enorm2_pos {u : Fin n → ℝ} (h : u ≠ 0) : 0 < enorm2 u :=
  Real.sqrt_pos.2 (lt_of_le_of_ne (dotProduct_self_nonneg u)
    (fun e => h (dotProduct_self_eq_zero.1 e.symm)))
where
  dotProduct_self_nonneg (u : Fin n → ℝ) : 0 ≤ u ⬝ᵥ u :=
    Finset.sum_nonneg fun i _ => mul_self_nonneg (u i)

theorem unit_dot {u : Fin n → ℝ} (h : u ≠ 0) :
    ((enorm2 u)⁻¹ • u) ⬝ᵥ ((enorm2 u)⁻¹ • u) = 1 := by
  have hp := enorm2_pos h
  have hs : enorm2 u * enorm2 u = u ⬝ᵥ u :=
    Real.mul_self_sqrt (enorm2_pos.dotProduct_self_nonneg u)
  rw [smul_dotProduct, dotProduct_smul, ← hs]
  simp only [smul_eq_mul]
  field_simp

/-- the covariance computed by the code -/
theorem updateCovViaRam_fin {u : Fin n → ℝ} (hu : u ≠ 0) {i : ℕ} (hi : 0 < i) (eta target a : ℝ)
    (R : Matrix (Fin n) (Fin n) ℝ) :
    updateCovViaRam (finVec u) i (.fin eta) (.fin target) (.fin a) (finMx R) =
      finMx (Rᵀ * R + ramCoef i eta target a • vecMulVec (ramDir R u) (ramDir R u)) := by
  have hp := enorm2_pos hu
  have hi' : (0 : ℝ) < i := by exact_mod_cast hi
  have hpow : (0 : ℝ) < (i : ℝ) ^ eta := Real.rpow_pos_of_pos hi' _
  have i1 : (lit 1 : XR) = .fin 1 := by simp
  have e1 : (PyFloat.sqrt (normSq (finVec u)) : XR) = .fin (enorm2 u) := by
    change PyFloat.sqrt (normSq fun i => XR.fin (u i)) = _
    rw [XR.normSq_fin, XR.sqrt_fin (Finset.sum_nonneg fun i _ => mul_self_nonneg (u i))]
    rfl
  have e2 : (lit 1 : XR) / .fin (enorm2 u) = .fin (enorm2 u)⁻¹ := by
    rw [i1, XR.fin_div hp.ne', one_div]
  have e3 : (lit 1 : XR) / PyFloat.pow (ofInt i) (.fin eta) = .fin (1 / (i : ℝ) ^ eta) := by
    have : (ofInt i : XR) = .fin i := by simp [ofInt]
    rw [this, XR.pow_fin hi', i1, XR.fin_div hpow.ne']
  have e4 : ∀ j : Fin n, finVec u j * XR.fin (enorm2 u)⁻¹ = .fin (((enorm2 u)⁻¹ • u) j) := by
    intro j; simp [finVec, mul_comm]
  unfold updateCovViaRam
  simp only [e1, e2, e3, e4]
  set v := (enorm2 u)⁻¹ • u with hv
  have hram : (fun i_1 j => (matEye i_1 j : XR) + XR.fin (1 / (i : ℝ) ^ eta) *
      (pyMin (lit 1) (XR.fin a) - XR.fin target) * (XR.fin (v i_1) * XR.fin (v j))) =
      finMx (1 + ramCoef i eta target a • vecMulVec v v) := by
    funext p q
    change _ = XR.fin _
    rw [i1, XR.pyMin_one_fin, Matrix.add_apply, Matrix.smul_apply, vecMulVec_apply, Matrix.one_apply]
    by_cases hpq : p = q
    · subst hpq
      simp [matEye, ramCoef]
    · simp [matEye, ramCoef, hpq]
  rw [hram]
  have hT : matT (finMx R) = finMx Rᵀ := rfl
  have hmul : ∀ A B : Matrix (Fin n) (Fin n) ℝ, matMul (finMx A) (finMx B) = finMx (A * B) :=
    fun A B => XR.matMul_fin A B
  rw [hT, hmul, hmul]
  congr 1
  rw [Matrix.mul_add, Matrix.mul_one, Matrix.add_mul, Matrix.mul_smul, Matrix.smul_mul]
  congr 2
  rw [mul_vecMulVec, vecMulVec_mul, ← mulVec_transpose]
  rfl

/-- The new covariance is symmetric, differs from the old one by a multiple of the square of the
component along the direction of the last proposal, and is positive definite exactly if the
multiple exceeds `-1`. -/
theorem ram_posDef_iff {u : Fin n → ℝ} (hu : u ≠ 0) {R : Matrix (Fin n) (Fin n) ℝ} (hR : IsUnit R)
    (c : ℝ) :
    (Rᵀ * R + c • vecMulVec (ramDir R u) (ramDir R u)).PosDef ↔ -1 < c := by
  set v := (enorm2 u)⁻¹ • u with hv
  have hv1 : v ⬝ᵥ v = 1 := unit_dot hu
  have hsymm : (Rᵀ * R + c • vecMulVec (ramDir R u) (ramDir R u)).IsHermitian := by
    rw [Matrix.IsHermitian, conjTranspose_eq_transpose_of_trivial]
    ext i j
    simp [Matrix.mul_apply, vecMulVec_apply, mul_comm]
  have hq : ∀ w : Fin n → ℝ, star w ⬝ᵥ ((Rᵀ * R + c • vecMulVec (ramDir R u) (ramDir R u)) *ᵥ w) =
      (R *ᵥ w) ⬝ᵥ (R *ᵥ w) + c * (v ⬝ᵥ (R *ᵥ w)) ^ 2 := by
    intro w
    have h1 : w ⬝ᵥ ((Rᵀ * R) *ᵥ w) = (R *ᵥ w) ⬝ᵥ (R *ᵥ w) := by
      rw [← mulVec_mulVec, dotProduct_mulVec, vecMul_transpose]
    have h2 : ramDir R u ⬝ᵥ w = v ⬝ᵥ (R *ᵥ w) := by
      rw [ramDir, dotProduct_mulVec, mulVec_transpose]
    simp only [star_trivial]
    rw [add_mulVec, dotProduct_add, h1, smul_mulVec, dotProduct_smul, vecMulVec_mulVec,
      dotProduct_smul, h2, dotProduct_comm w, h2]
    simp [sq]
  constructor
  · intro h
    obtain ⟨w, hw⟩ : ∃ w, R *ᵥ w = v := by
      refine ⟨R⁻¹ *ᵥ v, ?_⟩
      rw [mulVec_mulVec, Matrix.mul_nonsing_inv _ ((Matrix.isUnit_iff_isUnit_det _).1 hR), one_mulVec]
    have hw0 : w ≠ 0 := by
      rintro rfl
      rw [mulVec_zero] at hw
      rw [← hw] at hv1
      simp at hv1
    have := h.dotProduct_mulVec_pos hw0
    rw [hq, hw, hv1] at this
    linarith
  · intro hc
    refine .of_dotProduct_mulVec_pos hsymm fun w hw => ?_
    rw [hq]
    set y := R *ᵥ w with hy
    have hy0 : y ≠ 0 := by
      intro e
      apply hw
      have : R⁻¹ *ᵥ y = w := by
        rw [hy, mulVec_mulVec, Matrix.nonsing_inv_mul _ ((Matrix.isUnit_iff_isUnit_det _).1 hR), one_mulVec]
      rw [← this, e, mulVec_zero]
    have hyy : 0 < y ⬝ᵥ y := lt_of_le_of_ne (enorm2_pos.dotProduct_self_nonneg y)
      (fun e => hy0 (dotProduct_self_eq_zero.1 e.symm))
    have hcs : (v ⬝ᵥ y) ^ 2 ≤ y ⬝ᵥ y := by
      have := Finset.sum_mul_sq_le_sq_mul_sq Finset.univ v y
      have e1 : ∑ i, v i ^ 2 = 1 := by rw [← hv1]; simp [dotProduct, sq]
      have e2 : ∑ i, y i ^ 2 = y ⬝ᵥ y := by simp [dotProduct, sq]
      rw [e1, e2, one_mul] at this
      exact this
    rcases (sq_nonneg (v ⬝ᵥ y)).eq_or_lt with h0 | h0
    · rw [← h0, mul_zero, add_zero]; exact hyy
    · nlinarith

/-- Setting of the statements below: an adaptation after the burn-in in a completed run with
robust adaptation, in exact arithmetic, with an invertible finite factor `R`, normal vector
`u ≠ 0`, and the value `a` that the code takes for the acceptance probability. -/
structure RamStep (L : Lapack XR) (o : Obj XR flags m) (out : RunOut XR σ flags m)
    (r : AdaptRecord XR (nS flags)) (R : Matrix (Fin (nS flags)) (Fin (nS flags)) ℝ)
    (u : Fin (nS flags) → ℝ) (a eta target ε s : ℝ) : Prop where
  lapack : ExactLapack L
  run : ∃ (U : UserFuns XR N (nS flags) m) (G : Rng σ XR) (fuel : ℕ) (rng : σ) (up : Bool),
    runSimulation U G L fuel o rng up = .ok out
  ram : o.opts.doram = true
  mem : r ∈ out.final.adaptLog
  burnin : o.opts.burnintime ≤ r.at_
  factor : r.before.R = finMx R
  unit : IsUnit R
  draw : r.u = finVec u
  nonzero : u ≠ 0
  alpha : r.alpha = some (.fin a)
  eta : o.extra.etaparam = .fin eta ∧ 0 ≤ eta
  target : o.extra.alphatarget = .fin target ∧ 0 < target ∧ target < 1
  adjust : o.extra.qcovAdjust = .fin ε
  scale : IsScale o.opts.adascale (nS flags) s

theorem ram_factor {L : Lapack XR} {o : Obj XR flags m} {out : RunOut XR σ flags m}
    {r : AdaptRecord XR (nS flags)} {R : Matrix (Fin (nS flags)) (Fin (nS flags)) ℝ}
    {u : Fin (nS flags) → ℝ} {a eta target ε s : ℝ} (h : RamStep L o out r R u a eta target ε s) :
    0 < s ∧ 0 < 1 / (r.at_ : ℝ) ^ eta ∧ 1 / (r.at_ : ℝ) ^ eta ≤ 1 ∧
    r.after.R = checkForSingular L (finMx (Rᵀ * R + ramCoef r.at_ eta target a •
      vecMulVec (ramDir R u) (ramDir R u))) r.before.R (.fin ε) (.fin s) := by
  obtain ⟨U, G, fuel, rng, up, hrun⟩ := h.run
  have hs := run_adapt hrun r h.mem
  obtain ⟨seg, hspec⟩ := hs.spec h.burnin
  obtain ⟨upcov, hup, hR⟩ := hspec.factor
  obtain ⟨o1, I, s0, hst, hI, _, hset, _, _, hinit⟩ := run_cov hrun
  obtain ⟨hsc, _⟩ := initCovState_ok hinit
  have hada : I.opts.adascale = o.opts.adascale := by rw [hst.init.opts, hst.opts]; rfl
  have hram : I.opts.doram = o.opts.doram := by rw [hst.init.opts, hst.opts]; rfl
  rw [hada] at hsc
  obtain ⟨e1, hpos⟩ := checkAdascale_fin h.scale hsc
  have hat : (1 : ℝ) ≤ r.at_ := by exact_mod_cast hs.pos
  have hpow : (1 : ℝ) ≤ (r.at_ : ℝ) ^ eta := Real.one_le_rpow hat h.eta.2
  refine ⟨hpos, by positivity, ?_, ?_⟩
  · rw [div_le_one (by linarith)]; exact hpow
  · unfold newCovariance at hup
    rw [if_pos (by
      change out.init.opts.doram = true
      rw [hI, hram, h.ram]), h.alpha] at hup
    obtain ⟨al, h1, h2⟩ := bind_ok.1 hup
    cases h1
    have h2 : updateCovViaRam r.u r.at_ o.extra.etaparam o.extra.alphatarget (.fin a) r.before.R = upcov :=
      Except.ok.inj h2
    rw [h.eta.1, h.target.1, h.factor, h.draw, updateCovViaRam_fin h.nonzero hs.pos] at h2
    rw [hR, ← h2, hs.qcovScale, hI, e1]
    congr 1
    exact h.adjust

/-- **C20**, the part that holds.  If the value `a` that is taken for the acceptance probability is
not negative, the new covariance is positive definite, `RᵀR` becomes `s²` times the old one plus
a multiple of the square of the direction of the last proposal, and the multiple is positive
exactly if `a` exceeds the target.  (Missing: the value is the logarithm of the posterior ratio,
not the acceptance probability, so it may be negative; see the refutations below.) -/
theorem C20_ram_partial {L : Lapack XR} {o : Obj XR flags m} {out : RunOut XR σ flags m}
    {r : AdaptRecord XR (nS flags)} {R : Matrix (Fin (nS flags)) (Fin (nS flags)) ℝ}
    {u : Fin (nS flags) → ℝ} {a eta target ε s : ℝ} (h : RamStep L o out r R u a eta target ε s)
    (ha : 0 ≤ a) :
    ∃ (R' : Matrix (Fin (nS flags)) (Fin (nS flags)) ℝ) (c : ℝ), r.after.R = finMx R' ∧ IsUnit R' ∧
      (R'ᵀ * R').PosDef ∧
      R'ᵀ * R' = s ^ 2 • (Rᵀ * R + c • vecMulVec (ramDir R u) (ramDir R u)) ∧
      (0 < c ↔ target < a) := by
  obtain ⟨hs, hp, hle, hR⟩ := ram_factor h
  obtain ⟨_, ht0, ht1⟩ := h.target
  have hc : -1 < ramCoef r.at_ eta target a := by
    unfold ramCoef
    have : 0 ≤ min 1 a := le_min zero_le_one ha
    nlinarith
  have hpd := (ram_posDef_iff h.nonzero h.unit (ramCoef r.at_ eta target a)).2 hc
  have hsymm : (Rᵀ * R + ramCoef r.at_ eta target a • vecMulVec (ramDir R u) (ramDir R u)).IsSymm := by
    have := hpd.isHermitian
    rwa [Matrix.IsHermitian, conjTranspose_eq_transpose_of_trivial] at this
  obtain ⟨R', e1, e2⟩ := (checkForSingular_exact h.lapack hsymm r.before.R ε s).1 hpd
  refine ⟨R', ramCoef r.at_ eta target a, by rw [hR, e1],
    isUnit_of_gram e2 (isUnit_smul_posDef hpd hs), ?_, e2, ?_⟩
  · rw [e2]; exact hpd.smul (by positivity)
  · unfold ramCoef
    rw [mul_pos_iff_of_pos_left hp, sub_pos, lt_min_iff]
    exact ⟨fun h => h.2, fun h => ⟨ht1, h⟩⟩

/-- **C20** is false as stated, growth: whenever the logarithm `a` of the posterior ratio is below
the target but the acceptance probability `exp a` exceeds it, the covariance shrinks along the
direction of the proposal (if it stays positive definite) instead of growing. -/
theorem C20_growth_refuted {L : Lapack XR} {o : Obj XR flags m} {out : RunOut XR σ flags m}
    {r : AdaptRecord XR (nS flags)} {R : Matrix (Fin (nS flags)) (Fin (nS flags)) ℝ}
    {u : Fin (nS flags) → ℝ} {a eta target ε s : ℝ} (h : RamStep L o out r R u a eta target ε s)
    (ha : target - 1 < a) (hlt : a < target) :
    ∃ (R' : Matrix (Fin (nS flags)) (Fin (nS flags)) ℝ) (c : ℝ), r.after.R = finMx R' ∧ c < 0 ∧
      R'ᵀ * R' = s ^ 2 • (Rᵀ * R + c • vecMulVec (ramDir R u) (ramDir R u)) := by
  obtain ⟨hs, hp, hle, hR⟩ := ram_factor h
  obtain ⟨_, ht0, ht1⟩ := h.target
  have hm : min 1 a = a := min_eq_right (by linarith)
  have hc : -1 < ramCoef r.at_ eta target a := by
    unfold ramCoef
    rw [hm]
    nlinarith
  have hc0 : ramCoef r.at_ eta target a < 0 := by
    unfold ramCoef
    rw [hm]
    nlinarith
  have hpd := (ram_posDef_iff h.nonzero h.unit (ramCoef r.at_ eta target a)).2 hc
  have hsymm : (Rᵀ * R + ramCoef r.at_ eta target a • vecMulVec (ramDir R u) (ramDir R u)).IsSymm := by
    have := hpd.isHermitian
    rwa [Matrix.IsHermitian, conjTranspose_eq_transpose_of_trivial] at this
  obtain ⟨R', e1, e2⟩ := (checkForSingular_exact h.lapack hsymm r.before.R ε s).1 hpd
  exact ⟨R', _, by rw [hR, e1], hc0, e2⟩

/-- **C20** is false as stated, definiteness: in the first iteration, if `a` is at most
`target - 1`, the matrix to be factored is not positive definite. -/
theorem C20_definite_refuted {L : Lapack XR} {o : Obj XR flags m} {out : RunOut XR σ flags m}
    {r : AdaptRecord XR (nS flags)} {R : Matrix (Fin (nS flags)) (Fin (nS flags)) ℝ}
    {u : Fin (nS flags) → ℝ} {a eta target ε s : ℝ} (h : RamStep L o out r R u a eta target ε s)
    (hfirst : r.at_ = 1) (ha : a ≤ target - 1) :
    ∃ M : Matrix (Fin (nS flags)) (Fin (nS flags)) ℝ,
      r.after.R = checkForSingular L (finMx M) r.before.R (.fin ε) (.fin s) ∧ ¬ M.PosDef := by
  obtain ⟨hs, hp, hle, hR⟩ := ram_factor h
  obtain ⟨_, ht0, ht1⟩ := h.target
  refine ⟨_, hR, fun hpd => ?_⟩
  have := (ram_posDef_iff h.nonzero h.unit _).1 hpd
  unfold ramCoef at this
  rw [hfirst, min_eq_right (by linarith)] at this
  simp at this
  linarith

/-! ### Examples -/

namespace XRun

/-- robust adaptation, two rows -/
noncomputable def ramArgs : OptArgs XR := { nsimu := 2, method := .ram }

theorem init_sigma2 {o : Obj XR XRun.flags 1} {I : Init XR Unit XRun.flags 1}
    (hms : o.ms = settings) (hd : o.data = data)
    (h : ∃ ms1, checkDependentModelSettings o.ms o.data.n o.data.nbatch = .ok ms1 ∧
      checkWrtNsos ms1 1 = .ok I.ms ∧ toErrModel I.ms 1 = .ok I.errModel) :
    I.errModel.sigma2 = fun _ => .fin 1 := by
  obtain ⟨ms1, h1, h2, h3⟩ := h
  rw [hms, hd] at h1
  have h1' : checkDependentModelSettings settings data.n data.nbatch = .ok
      ⟨some [.fin 1], some [.fin 5], some [.fin 1], some 1, [.fin 1], false⟩ := by
    simp [checkDependentModelSettings, settings, defineModelSettings, defaultN0, data, addDataSet,
      ModelSettings.s20Now, Data.nbatch, convertNumpyArrayTo2d, convertToNumpyArray, ofInt]
    rfl
  rw [h1'] at h1
  cases h1
  have h2' : ∃ ms2 M, checkWrtNsos (⟨some [.fin 1], some [.fin 5], some [.fin 1], some 1, [.fin 1], false⟩ :
      ModelSettings XR) 1 = .ok ms2 ∧ toErrModel ms2 1 = .ok M ∧ M.sigma2 = fun _ => .fin 1 := by
    refine ⟨_, _, rfl, rfl, ?_⟩
    funext i
    simp
  obtain ⟨ms2, M, g1, g2, g3⟩ := h2'
  rw [g1] at h2
  cases h2
  rw [g2] at h3
  cases h3
  exact g3

/-- Initial variance `v`; the proposal is `sqrt v`, within the limits exactly if `v ≤ 100`. -/
theorem ram_run {v : ℝ} (hv : 0 < v) : ∃ (out : RunOut XR Unit XRun.flags 1) (r : _),
    RamStep exactLapack (obj ramArgs true v) out r (diagonal fun _ => Real.sqrt v) (fun _ => 1)
      (if v ≤ 100 then -v / 2 else 0) (7 / 10) (1 / 4) 1 1 ∧ r.at_ = 1 := by
  obtain ⟨out, h⟩ := XRun.run_ok' exactLapack ramArgs (by decide) rfl (by decide) rfl rfl true v 1
  obtain ⟨o1, I, s0, hst, rfl, hc0, h1, h2, hch, hinit⟩ := run_cov h
  obtain ⟨_, _, hci, hchain, _, _, _, hjs, _⟩ := setup_fresh h1
  obtain rfl := hjs rfl
  obtain ⟨_, ⟨R, hR, hR'⟩, _⟩ := initCovState_ok hinit
  have hopts : out.init.opts = checkDependentSimulationOptions (obj ramArgs true v).opts false := by
    rw [hst.init.opts]; rfl
  have hsub : ∀ a b : Fin (nS XRun.flags), a = b := by
    rw [nS_flags]; exact fun a b => Subsingleton.elim a b
  have hRf : s0.cov.R = finMx (diagonal fun _ => Real.sqrt v) := by
    rw [hc0]
    rw [if_neg (by rw [hopts]; simp [checkDependentSimulationOptions, XRun.obj, newObj, ramArgs,
      defineSimulationOptions])] at hR'
    rw [hR'.1]
    change (ixRestrict _ _ >>= fun _ => _) = _ at hR
    unfold ixRestrict at hR
    rw [dif_pos fun i => (parindOf XRun.flags i).2, ok_bind] at hR
    have := congrArg Prod.fst (Except.ok.inj hR)
    dsimp only at this
    rw [← this]
    funext i j
    have hij : ∀ a b : Fin 1, a = b := fun a b => Subsingleton.elim a b
    rw [hsub i j]
    simp [diagflat, finMx, finMat, hij _ (0 : Fin 1), XR.sqrt_fin hv.le]
  have hth : s0.oldSet.theta = finVec fun _ => 0 := by
    rw [hst.oldSet, hst.init.theta]; rfl
  have hs2 : s0.oldSet.sigma2 = fun _ => .fin 1 := by
    rw [hst.oldSet, hst.init.sigma2]
    exact init_sigma2 rfl rfl hst.init.ms
  have hss : s0.oldSet.ss = fun _ => .fin 0 := by
    rw [hst.oldSet]
    have := hst.init.sos
    unfold SosAt at this
    rw [if_pos (show user.style1 = true from rfl)] at this
    rcases this with h | ⟨h, _⟩
    · have h := (Except.ok.inj h).symm
      rw [h]
      funext i
      rw [hst.init.value]
      simp [obj, newObj, specs]
    · cases h
  have hprior : ∀ t, out.init.problem.prior t = .fin 0 := by
    intro t
    rw [hst.init.priorFun]; rfl
  have hpr : s0.oldSet.prior = .fin 0 := by
    rw [hst.oldSet, hst.init.prior, hprior]
  have hcand : (fun j => s0.oldSet.theta j + vecMat (rng.randn (nS XRun.flags) s0.world.rng).1 s0.cov.R j) =
      finVec fun _ => Real.sqrt v := by
    funext j
    rw [hth, hRf]
    have : ∀ j, (diagonal fun _ : Fin (nS XRun.flags) => Real.sqrt v) j j = Real.sqrt v := fun j => by simp
    have e := congrFun (XR.vecMat_fin (fun _ => 1) (diagonal fun _ : Fin (nS XRun.flags) => Real.sqrt v)) j
    change XR.fin 0 + vecMat (fun i => XR.fin 1) (fun i k => XR.fin ((diagonal fun _ => Real.sqrt v) i k)) j = _
    rw [e, XR.fin_add]
    simp [finVec, diagonal_apply]
  have hout : isOutside (finVec fun _ => Real.sqrt v) out.init.problem.lower out.init.problem.upper =
      decide (¬ v ≤ 100) := by
    rw [hst.init.lower, hst.init.upper]
    have h10 : (10 : ℝ) < Real.sqrt v ↔ 100 < v := by
      rw [Real.lt_sqrt (by norm_num)]; norm_num
    have hneg : ¬ Real.sqrt v < -10 := by have := Real.sqrt_nonneg v; linarith
    simp [isOutside, atParind, obj, newObj, specs, finVec, h10, hneg]
    have h1 : List.finRange (nS XRun.flags) = [⟨0, by decide⟩] := by decide
    rw [h1]
    simp
  have hal : ∀ q z', runMetropolisStep out.init.problem rng s0.oldSet s0.cov.R s0.world = .ok (q, z') →
      q.newSet.alpha = some (.fin (if v ≤ 100 then -v / 2 else 0)) := by
    intro q z' g1
    unfold runMetropolisStep sampleCandidate at g1
    dsimp only at g1
    rw [hcand, hout] at g1
    by_cases hv100 : v ≤ 100
    · rw [if_neg (by simp [hv100])] at g1
      obtain ⟨⟨ss, w⟩, g2, g1⟩ := bind_ok.1 g1
      have g3 := evaluateSos_ok g2
      have hss' : ss = fun _ => .fin v := by
        have h4 := g3.1
        rw [hst.init.style1, hst.init.sosFun] at h4
        unfold SosAt at h4
        rw [if_pos (show user.style1 = true from rfl)] at h4
        rcases h4 with h | ⟨h, _⟩
        · have h := (Except.ok.inj h).symm
          rw [h]
          funext i
          have hw : w.value 0 = XR.fin (Real.sqrt v) := by
            rw [g3.2.1, hst.init.parind]
            obtain ⟨i, hi⟩ := exists_parindOf (flags := XRun.flags) (k := 0) rfl
            rw [← hi]
            exact writeAt_sampled (parindOf_injective _) i
          rw [← g3.2.1, hw, XR.fin_mul, Real.mul_self_sqrt hv.le]
        · cases h
      cases g1
      dsimp only
      rw [hss', hs2, hss, hprior, hpr, if_pos hv100]
      simp [calcLogPosteriorRatio, logLike]
      have hd : ∀ x : ℝ, (vsum fun _ : Fin 1 => XR.fin x / XR.fin 1) = .fin x := by
        intro x
        rw [XR.fin_div one_ne_zero, XR.vsum_fin]
        simp
      rw [hd, hd]
      simp
      ring
    · rw [if_pos (by simp [hv100])] at g1
      cases g1
      dsimp only [setOutsideBounds]
      rw [if_neg hv100]
      simp
  obtain ⟨_, s1, ⟨_, hI⟩, hfin⟩ := executeSimulator_inv (P := fun i s => (i = 1 → s = loopStart s0) ∧
      (i = 2 → ∃ r ∈ s.adaptLog, r.at_ = 1 ∧ r.before.R = finMx (diagonal fun _ => Real.sqrt v) ∧
        r.u = finVec (fun _ => 1) ∧ r.alpha = some (.fin (if v ≤ 100 then -v / 2 else 0))))
    ⟨fun _ => rfl, by omega⟩
    (fun i a b p hi hi' hP hp => by
      have hi2 : i < 2 := by
        have : i < out.init.opts.nsimu.toNat := hi'
        rw [hopts] at this; exact this
      obtain rfl : i = 1 := by omega
      obtain rfl := hP.1 rfl
      refine ⟨by omega, fun _ => ?_⟩
      have hnow : adaptNow (⟨out.init.problem, XRun.rng, exactLapack,
          runOpts out.init.opts (obj ramArgs true v).extra, 0⟩ : Env XR Unit 1 (nS XRun.flags) 1)
          (loopStart s0) := by
        unfold adaptNow
        change 0 < out.init.opts.adaptint ∧ _ = out.init.opts.adaptint
        rw [hopts]
        exact ⟨(show (0 : ℤ) < 1 by decide), rfl⟩
      rw [hp.adaptLog, if_pos hnow]
      have hprop := hp.prop
      unfold propose at hprop
      obtain ⟨⟨q, z'⟩, g1, g⟩ := bind_ok.1 hprop
      dsimp only at g
      rw [if_neg (by
        change ¬ (1 < out.init.opts.ntry.toNat ∧ _)
        rw [hopts]
        exact fun h => absurd h.1 (show ¬ 1 < 1 by decide))] at g
      cases g
      refine ⟨_, List.mem_append_right _ (List.mem_singleton.2 rfl), rfl, hRf, ?_, ?_⟩
      · unfold runMetropolisStep sampleCandidate at g1
        dsimp only at g1
        split at g1
        · cases g1; rfl
        · obtain ⟨_, _, g1⟩ := bind_ok.1 g1
          cases g1; rfl
      · exact hal q z' g1) h2
  have hns : (runOpts out.init.opts (XRun.obj ramArgs true v).extra).nsimu = 2 := by
    change out.init.opts.nsimu.toNat = 2
    rw [hopts]; rfl
  obtain ⟨r, hr, r1, r2, r3, r4⟩ := hI (by dsimp only; rw [hns])
  refine ⟨out, r, ⟨exactLapack_ok, ⟨_, _, _, _, _, h⟩, rfl, by rw [hfin]; exact hr,
    by change (0 : ℤ) ≤ _; positivity, r2, ?_, r3, ?_, r4, ⟨rfl, by norm_num⟩, ⟨rfl, by norm_num, by norm_num⟩,
    rfl, .inr ⟨?_, one_pos⟩⟩, r1⟩
  · rw [Matrix.isUnit_iff_isUnit_det, det_diagonal]
    exact (isUnit_iff_ne_zero.2 (Finset.prod_ne_zero_iff.2 fun _ _ => (Real.sqrt_pos.2 hv).ne'))
  · intro h
    have := congrFun h ⟨0, by rw [nS_flags]; exact one_pos⟩
    simp at this
  · change some (lit 1 : XR) = _
    simp

end XRun

/-- the hypotheses of `C20_ram_partial` can be met: a proposal outside the limits -/
example : ∃ (out : RunOut XR Unit XRun.flags 1) (r : _),
    RamStep exactLapack (XRun.obj XRun.ramArgs true 400) out r (diagonal fun _ => Real.sqrt 400)
      (fun _ => 1) 0 (7 / 10) (1 / 4) 1 1 := by
  obtain ⟨out, r, h, _⟩ := XRun.ram_run (v := 400) (by norm_num)
  rw [if_neg (by norm_num)] at h
  exact ⟨out, r, h⟩

/-- the hypotheses of `C20_growth_refuted` can be met with an acceptance probability above the
target -/
example : ∃ (out : RunOut XR Unit XRun.flags 1) (r : _),
    RamStep exactLapack (XRun.obj XRun.ramArgs true 1) out r (diagonal fun _ => Real.sqrt 1)
      (fun _ => 1) (-1 / 2) (7 / 10) (1 / 4) 1 1 ∧
    (1 / 4 : ℝ) - 1 < -1 / 2 ∧ (-1 / 2 : ℝ) < 1 / 4 ∧ (1 / 4 : ℝ) < Real.exp (-1 / 2) := by
  obtain ⟨out, r, h, _⟩ := XRun.ram_run (v := 1) one_pos
  rw [if_pos (by norm_num)] at h
  exact ⟨out, r, h, by norm_num, by norm_num, by have := Real.add_one_le_exp (-1 / 2); linarith⟩

/-- the hypotheses of `C20_definite_refuted` can be met -/
example : ∃ (out : RunOut XR Unit XRun.flags 1) (r : _),
    RamStep exactLapack (XRun.obj XRun.ramArgs true 4) out r (diagonal fun _ => Real.sqrt 4)
      (fun _ => 1) (-4 / 2) (7 / 10) (1 / 4) 1 1 ∧ r.at_ = 1 ∧ (-4 / 2 : ℝ) ≤ 1 / 4 - 1 := by
  obtain ⟨out, r, h, h1⟩ := XRun.ram_run (v := 4) (by norm_num)
  rw [if_pos (by norm_num)] at h
  exact ⟨out, r, h, h1, by norm_num⟩

end Verif
