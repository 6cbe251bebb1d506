import Verif.Lemmas.JointMove
import Verif.Props.Invariance
import Verif.Props.GammaLaw

/-! # C84: the joint posterior of values and sampled error variances is kept -/

set_option linter.unusedSectionVars false

namespace Verif
open XR MeasureTheory Finset Function
open scoped ENNReal Matrix

section density
variable {N m : ℕ} {flags : Fin N → Bool}

/-- The unnormalised joint posterior density of parameter values and error variances: the prior
`exp(-r/2)`, the likelihood of `Nobs` normal observations in each data set with sums of squares
`q`, and for each variance the prior `v^(-N0/2-1) exp(-N0 S20 / (2 v))`, the scaled inverse
chi-squared law. -/
noncomputable def jointDensity (flags : Fin N → Bool) (specs : Fin N → ParamSpec XR)
    (q : (Fin (nS flags) → ℝ) → Fin m → ℝ) (r : (Fin (nS flags) → ℝ) → ℝ) (Nobs N0 S20 : Fin m → ℝ) :
    (Fin (nS flags) → ℝ) × (Fin m → ℝ) → ℝ :=
  Set.indicator {p | InLimits flags specs (finVec p.1) ∧ ∀ j, 0 < p.2 j} fun p =>
    Real.exp (-(1 / 2) * r p.1) *
      (∏ j, p.2 j ^ (-(Nobs j / 2)) * Real.exp (-(q p.1 j / (2 * p.2 j)))) *
      ∏ j, p.2 j ^ (-(N0 j / 2) - 1) * Real.exp (-(N0 j * S20 j / (2 * p.2 j)))

/-- the joint posterior as a measure, not normalised -/
noncomputable def jointPosterior (flags : Fin N → Bool) (specs : Fin N → ParamSpec XR)
    (q : (Fin (nS flags) → ℝ) → Fin m → ℝ) (r : (Fin (nS flags) → ℝ) → ℝ) (Nobs N0 S20 : Fin m → ℝ) :
    Measure ((Fin (nS flags) → ℝ) × (Fin m → ℝ)) :=
  ((volume : Measure (Fin (nS flags) → ℝ)).prod (volume : Measure (Fin m → ℝ))).withDensity fun p =>
    ENNReal.ofReal (jointDensity flags specs q r Nobs N0 S20 p)

variable {specs : Fin N → ParamSpec XR} {q : (Fin (nS flags) → ℝ) → Fin m → ℝ}
  {r : (Fin (nS flags) → ℝ) → ℝ} {Nobs N0 S20 : Fin m → ℝ}

theorem measurable_logPost_density (hq : Measurable q) (hr : Measurable r) :
    Measurable fun p : (Fin m → ℝ) × (Fin (nS flags) → ℝ) =>
      (pointAt (logPost flags specs q r p.1) p.2).density := by
  simp only [logPost_density]
  have h1 : (fun p : (Fin m → ℝ) × (Fin (nS flags) → ℝ) => posteriorDensity flags specs q r p.1 p.2) =
      Set.indicator {p : (Fin m → ℝ) × (Fin (nS flags) → ℝ) | InLimits flags specs (finVec p.2)}
        fun p => Real.exp (-(1 / 2) * ∑ i, q p.2 i / p.1 i - 1 / 2 * r p.2) := by
    funext p
    unfold posteriorDensity
    by_cases h : InLimits flags specs (finVec p.2)
    · rw [Set.indicator_of_mem (by exact h), Set.indicator_of_mem (by exact h)]
    · rw [Set.indicator_of_notMem (by exact h), Set.indicator_of_notMem (by exact h)]
  rw [h1]
  refine Measurable.indicator ?_ (measurable_snd (measurableSet_inLimits specs))
  have h2 : ∀ i, Measurable fun p : (Fin m → ℝ) × (Fin (nS flags) → ℝ) => q p.2 i :=
    fun i => (measurable_pi_apply i).comp (hq.comp measurable_snd)
  have h3 : ∀ i, Measurable fun p : (Fin m → ℝ) × (Fin (nS flags) → ℝ) => p.1 i :=
    fun i => (measurable_pi_apply i).comp measurable_fst
  have h4 : Measurable fun p : (Fin m → ℝ) × (Fin (nS flags) → ℝ) => r p.2 := hr.comp measurable_snd
  exact (((Finset.measurable_sum _ fun i _ => (h2 i).div (h3 i)).const_mul _).sub (h4.const_mul _)).exp

theorem measurable_jointDensity (hq : Measurable q) (hr : Measurable r) :
    Measurable (jointDensity flags specs q r Nobs N0 S20) := by
  have h2 : ∀ i, Measurable fun p : (Fin (nS flags) → ℝ) × (Fin m → ℝ) => q p.1 i :=
    fun i => (measurable_pi_apply i).comp (hq.comp measurable_fst)
  have h3 : ∀ i, Measurable fun p : (Fin (nS flags) → ℝ) × (Fin m → ℝ) => p.2 i :=
    fun i => (measurable_pi_apply i).comp measurable_snd
  have h4 : Measurable fun p : (Fin (nS flags) → ℝ) × (Fin m → ℝ) => r p.1 := hr.comp measurable_fst
  refine Measurable.indicator ?_ ?_
  · refine ((h4.const_mul _).exp.mul ?_).mul ?_
    · exact Finset.measurable_prod _ fun j _ => ((h3 j).pow_const _).mul
        ((h2 j).div ((h3 j).const_mul _)).neg.exp
    · exact Finset.measurable_prod _ fun j _ => ((h3 j).pow_const _).mul
        (measurable_const.div ((h3 j).const_mul _)).neg.exp
  · have : {p : (Fin (nS flags) → ℝ) × (Fin m → ℝ) | InLimits flags specs (finVec p.1) ∧ ∀ j, 0 < p.2 j} =
        Prod.fst ⁻¹' {θ | InLimits flags specs (finVec θ)} ∩ ⋂ j, {p : (Fin (nS flags) → ℝ) × (Fin m → ℝ) | 0 < p.2 j} := by
      ext p; simp
    rw [this]
    exact (measurable_fst (measurableSet_inLimits specs)).inter
      (MeasurableSet.iInter fun j => measurableSet_lt measurable_const (h3 j))

open Classical in
/-- the joint density is the posterior of the values given the variances, times a function of these -/
theorem jointDensity_values (p : (Fin (nS flags) → ℝ) × (Fin m → ℝ)) :
    ENNReal.ofReal (jointDensity flags specs q r Nobs N0 S20 p) =
      (if ∀ j, 0 < p.2 j then ENNReal.ofReal ((∏ j, p.2 j ^ (-(Nobs j / 2))) *
        ∏ j, p.2 j ^ (-(N0 j / 2) - 1) * Real.exp (-(N0 j * S20 j / (2 * p.2 j)))) else 0) *
      ENNReal.ofReal (pointAt (logPost flags specs q r p.2) p.1).density := by
  rw [logPost_density]
  unfold jointDensity posteriorDensity
  by_cases hv : ∀ j, 0 < p.2 j
  · by_cases h : InLimits flags specs (finVec p.1)
    · rw [Set.indicator_of_mem (by exact ⟨h, hv⟩), Set.indicator_of_mem (by exact h), if_pos hv,
        ← ENNReal.ofReal_mul (mul_nonneg (Finset.prod_nonneg fun j _ => Real.rpow_nonneg (hv j).le _)
          (Finset.prod_nonneg fun j _ => mul_nonneg (Real.rpow_nonneg (hv j).le _) (Real.exp_pos _).le))]
      congr 1
      rw [Finset.prod_mul_distrib, ← Real.exp_sum]
      have : Real.exp (-(1 / 2) * ∑ i, q p.1 i / p.2 i - 1 / 2 * r p.1) =
          Real.exp (-(1 / 2) * r p.1) * Real.exp (∑ j, -(q p.1 j / (2 * p.2 j))) := by
        rw [← Real.exp_add]
        congr 1
        rw [Finset.mul_sum]
        have : ∀ j, -(1 / 2) * (q p.1 j / p.2 j) = -(q p.1 j / (2 * p.2 j)) := by
          intro j
          have := (hv j).ne'
          field_simp
        simp only [this]
        ring
      rw [this]
      ring
    · rw [Set.indicator_of_notMem (fun hh => h hh.1), Set.indicator_of_notMem (by exact h)]
      simp
  · rw [Set.indicator_of_notMem (fun hh => hv hh.2), if_neg hv]
    simp

open Classical in
/-- the joint density is a product of inverse gamma densities in the variances, times a function of the values -/
theorem jointDensity_variances (hshape : ∀ j, 0 < N0 j + Nobs j)
    (hrate : ∀ θ, InLimits flags specs (finVec θ) → ∀ j, 0 < N0 j * S20 j + q θ j)
    (p : (Fin (nS flags) → ℝ) × (Fin m → ℝ)) :
    ENNReal.ofReal (jointDensity flags specs q r Nobs N0 S20 p) =
      (if InLimits flags specs (finVec p.1) then ENNReal.ofReal (Real.exp (-(1 / 2) * r p.1) *
        ∏ j, (Real.Gamma (1 / 2 * (N0 j + Nobs j)) /
          ((N0 j * S20 j + q p.1 j) / 2) ^ (1 / 2 * (N0 j + Nobs j)))) else 0) *
      ∏ j, invGammaPDF (1 / 2 * (N0 j + Nobs j)) ((N0 j * S20 j + q p.1 j) / 2) (p.2 j) := by
  unfold jointDensity
  by_cases h : InLimits flags specs (finVec p.1)
  · by_cases hv : ∀ j, 0 < p.2 j
    · rw [Set.indicator_of_mem (by exact ⟨h, hv⟩), if_pos h]
      simp only [invGammaPDF, if_pos (hv _)]
      have hb : ∀ j, 0 < (N0 j * S20 j + q p.1 j) / 2 := fun j => by have := hrate _ h j; positivity
      have hG : ∀ j, 0 < Real.Gamma (1 / 2 * (N0 j + Nobs j)) := fun j =>
        Real.Gamma_pos_of_pos (by have := hshape j; positivity)
      rw [← ENNReal.ofReal_prod_of_nonneg fun j _ => ?_, ← ENNReal.ofReal_mul ?_]
      · congr 1
        rw [mul_assoc, mul_assoc, ← Finset.prod_mul_distrib, ← Finset.prod_mul_distrib]
        congr 1
        refine Finset.prod_congr rfl fun j _ => ?_
        have e1 : Real.exp (-((N0 j * S20 j + q p.1 j) / 2 / p.2 j)) =
            Real.exp (-(q p.1 j / (2 * p.2 j))) * Real.exp (-(N0 j * S20 j / (2 * p.2 j))) := by
          rw [← Real.exp_add]
          congr 1
          have := (hv j).ne'
          field_simp
          ring
        have e2 : p.2 j ^ (-(1 / 2 * (N0 j + Nobs j)) - 1) =
            p.2 j ^ (-(Nobs j / 2)) * p.2 j ^ (-(N0 j / 2) - 1) := by
          rw [← Real.rpow_add (hv j)]
          congr 1
          ring
        have e3 : ((N0 j * S20 j + q p.1 j) / 2) ^ (1 / 2 * (N0 j + Nobs j)) ≠ 0 :=
          (Real.rpow_pos_of_pos (hb j) _).ne'
        rw [neg_div, e1, e2]
        have := (hG j).ne'
        generalize Real.Gamma (1 / 2 * (N0 j + Nobs j)) = g at *
        generalize ((N0 j * S20 j + q p.1 j) / 2) ^ (1 / 2 * (N0 j + Nobs j)) = b at *
        rw [show ∀ a c d e : ℝ, g / b * (b / g * (a * c * (d * e))) = (g / b * (b / g)) * ((a * d) * (c * e)) from
          fun a c d e => by ring, div_mul_div_cancel₀ e3, div_self this, one_mul]
      · exact mul_nonneg (Real.exp_pos _).le (Finset.prod_nonneg fun j _ =>
          div_nonneg (hG j).le (Real.rpow_nonneg (hb j).le _))
      · exact mul_nonneg (div_nonneg (Real.rpow_nonneg (hb j).le _) (hG j).le)
          (mul_nonneg (Real.rpow_nonneg (hv j).le _) (Real.exp_pos _).le)
    · rw [Set.indicator_of_notMem (fun hh => hv hh.2)]
      push Not at hv
      obtain ⟨j, hj⟩ := hv
      have h0 : invGammaPDF (1 / 2 * (N0 j + Nobs j)) ((N0 j * S20 j + q p.1 j) / 2) (p.2 j) = 0 :=
        if_neg (not_lt.2 hj)
      have h1 : ∏ j, invGammaPDF (1 / 2 * (N0 j + Nobs j)) ((N0 j * S20 j + q p.1 j) / 2) (p.2 j) = 0 :=
        Finset.prod_eq_zero (Finset.mem_univ j) h0
      rw [h1]
      simp
  · rw [Set.indicator_of_notMem (fun hh => h hh.1), if_neg h]
    simp

end density

section loop
variable {σ : Type} [MeasurableSpace σ] {μ : Measure σ} {N n m : ℕ}

/-- the error model of a run in which the variances are `v` -/
noncomputable def sampledModel (N0 S20 : Fin m → ℝ) (NX : List XR) (v : Fin m → ℝ) : ErrModel XR m :=
  { N0 := fun j => .fin (N0 j), N := NX, S20 := .own fun j => .fin (S20 j), sigma2 := finVec v }

/-- The state of a run with values `z.1.1`, variances `z.1.2` and generator state `z.2`. -/
structure JointAt (P : Problem XR N n m) (fixed : Vec XR N) (cov : CovState XR n) (q : (Fin n → ℝ) → Fin m → ℝ)
    (r : (Fin n → ℝ) → ℝ) (N0 S20 : Fin m → ℝ) (NX : List XR) (z : ((Fin n → ℝ) × (Fin m → ℝ)) × σ)
    (s : SimState XR σ N n m) : Prop where
  theta : s.oldSet.theta = finVec z.1.1
  ss : s.oldSet.ss = finVec (q z.1.1)
  prior : s.oldSet.prior = .fin (r z.1.1)
  sigma2 : s.oldSet.sigma2 = finVec z.1.2
  pos : ∀ j, 0 < z.1.2 j
  inside : InsideOf P (finVec z.1.1)
  errModel : s.errModel = sampledModel N0 S20 NX z.1.2
  rng : s.world.rng = z.2
  value : ∀ k, (∀ i, P.parind i ≠ k) → s.world.value k = fixed k
  cov : s.cov = cov

variable {E : Env XR σ N n m} {fixed : Vec XR N} {cov : CovState XR n} {q : (Fin n → ℝ) → Fin m → ℝ}
  {r : (Fin n → ℝ) → ℝ} {N0 S20 : Fin m → ℝ} {NX : List XR} {lp : (Fin m → ℝ) → (Fin n → ℝ) → Option ℝ}
  {A : ℕ → Matrix (Fin n) (Fin n) ℝ} {W : ℕ → Fin n → Fin n → ℝ}

/-- What the loop needs to know of a problem: the values of the user's functions, the log posterior, and the
factors of the stages. -/
structure JointEnv (E : Env XR σ N n m) (fixed : Vec XR N) (cov : CovState XR n) (q : (Fin n → ℝ) → Fin m → ℝ)
    (r : (Fin n → ℝ) → ℝ) (lp : (Fin m → ℝ) → (Fin n → ℝ) → Option ℝ)
    (A : ℕ → Matrix (Fin n) (Fin n) ℝ) (W : ℕ → Fin n → Fin n → ℝ) : Prop where
  npos : 0 < m
  sos : ∀ θ ss, SosOf E.problem fixed (finVec θ) ss → ss = finVec (q θ)
  prior : ∀ θ, E.problem.prior (finVec θ) = .fin (r θ)
  lpOut : ∀ v θ, ¬ InsideOf E.problem (finVec θ) → lp v θ = none
  lpIn : ∀ v θ, InsideOf E.problem (finVec θ) → lp v θ = some (-(1 / 2) * ∑ i, q θ i / v i - 1 / 2 * r θ)
  R : cov.R = finMx (A 0)
  stages : 1 < E.opts.ntry → ∃ l il, cov.RDR = .some l ∧ cov.invR = some il ∧ l.length = E.opts.ntry ∧
    ∀ k < E.opts.ntry, l[k]? = some (finMx (A k)) ∧ il[k]? = some (finMx (Matrix.of (W k)))

theorem JointEnv.finite (H : JointEnv E fixed cov q r lp A W) (D : IdealRng E.rng n μ) :
    FiniteStages (SosOf E.problem fixed) E.problem.prior E.rng cov.R cov.RDR cov.invR E.opts.ntry W := by
  refine ⟨fun θ => ⟨_, H.prior θ⟩, fun θ ss h => ⟨_, H.sos θ ss h⟩,
    fun s => ⟨D.z s, by rw [D.randn]⟩,
    fun s => ⟨D.u s, (D.range s).1, (D.range s).2, by rw [D.rand]⟩, ⟨A 0, by rw [H.R]; rfl⟩, ?_, ?_⟩
  · intro hnt l hl M hM
    obtain ⟨l', il, d1, d2, d4, d3⟩ := H.stages hnt
    rw [d1] at hl
    cases hl
    obtain ⟨k, hk, rfl⟩ := List.mem_iff_getElem.1 hM
    have := (d3 k (by omega)).1
    rw [List.getElem?_eq_getElem hk] at this
    exact ⟨_, Option.some.inj this⟩
  · intro l hl k hk
    obtain ⟨l', il, d1, d2, d4, d3⟩ := H.stages (by omega)
    rw [d2] at hl
    cases hl
    exact (d3 k (by omega)).2

/-- the proposals of one iteration: the values move as `moveStep` says -/
theorem JointAt.move (H : JointEnv E fixed cov q r lp A W) (D : IdealRng E.rng n μ)
    {z : ((Fin n → ℝ) × (Fin m → ℝ)) × σ} {s : SimState XR σ N n m}
    (h : JointAt E.problem fixed cov q r N0 S20 NX z s) {p : Proposal XR σ N n m} (hp : propose E s = .ok p)
    {y : ((Fin n → ℝ) × (Fin m → ℝ)) × σ} (hy : y = moveStep D A W lp (max 1 E.opts.ntry) z) :
    y.1.2 = z.1.2 ∧ (currentSet s p).theta = finVec y.1.1 ∧ (currentSet s p).ss = finVec (q y.1.1) ∧
      (currentSet s p).prior = .fin (r y.1.1) ∧ InsideOf E.problem (finVec y.1.1) ∧ p.world.rng = y.2 := by
  have hpr := propose_ok hp
  have hit := propose_iteration h.value hp
  rw [h.cov, h.rng] at hit
  have hmv : Move s.oldSet.theta (currentSet s p).theta p.tries := by
    unfold currentSet
    cases ha : p.accept with
    | false => exact .inl ⟨rfl, (hpr.rej ha).1⟩
    | true =>
      obtain ⟨-, -, -, pre, e1, e2, -⟩ := hpr.acc ha
      exact .inr ⟨pre, _, e1, rfl, rfl, rfl, e2⟩
  have hlpz := H.lpIn z.1.2 z.1.1 h.inside
  have hlp : IsLogPost (InsideOf E.problem) (SosOf E.problem fixed) E.problem.prior z.1.2 (lp z.1.2) :=
    ⟨H.lpOut z.1.2, fun θ q' r' h1 h2 h3 => by
      have e1 : q' = q θ := by
        funext i
        exact fin_injective (congrFun (H.sos θ _ h2) i)
      have e2 : r' = r θ := by
        rw [H.prior θ] at h3
        exact (fin_injective h3).symm
      rw [H.lpIn z.1.2 θ h1, e1, e2]⟩
  obtain ⟨x, x1, x2⟩ := iteration_move H.npos (H.finite D) D (A := A) H.R
    (fun l hl k R h1 h2 h3 => by
      obtain ⟨l', il, d1, d2, -, d3⟩ := H.stages (by omega)
      rw [d1] at hl
      cases hl
      rw [(d3 k h2).1] at h3
      exact (Option.some.inj h3).symm) h.pos hlp h.sigma2 (x := z.1.1)
    ⟨h.theta, z.1.2, h.pos, h.sigma2, by
      unfold pointAt
      rw [hlpz]
      exact ⟨q z.1.1, r z.1.1, h.ss, h.prior, rfl⟩⟩
    (by rw [hlpz]; simp) hit hmv
  have hyx : y = ((x, z.1.2), p.world.rng) := by rw [hy, moveStep, x2]
  subst hyx
  refine ⟨rfl, x1, ?_⟩
  cases ha : p.accept with
  | false =>
    have hc : currentSet s p = s.oldSet := by unfold currentSet; rw [ha]; rfl
    rw [hc] at x1 ⊢
    have hxz : x = z.1.1 := by
      rw [h.theta] at x1
      funext i
      exact (fin_injective (congrFun x1 i)).symm
    subst hxz
    exact ⟨h.ss, h.prior, h.inside, rfl⟩
  | true =>
    have hc : currentSet s p = p.newSet := by unfold currentSet; rw [ha]; rfl
    rw [hc] at x1 ⊢
    obtain ⟨⟨a1, ⟨val, a2, a3⟩, a4⟩, -⟩ := hpr.acc ha
    rw [x1] at a1 a3 a4
    refine ⟨H.sos x _ ⟨val, fun k hk => (a2 k hk).trans (h.value k hk), a3⟩, by rw [a4, H.prior], a1, rfl⟩

/-- the draws of new variances from the generator state `s` succeed, whatever the sums of squares -/
def DrawsFrom (E : Env XR σ N n m) (N0 S20 : Fin m → ℝ) (NX : List XR) (draw : σ → (Fin m → ℝ) × σ) (s : σ) : Prop :=
  (∀ j, 0 < (draw s).1 j) ∧ ∀ q : Fin m → ℝ, (∀ j, 0 < N0 j * S20 j + q j) → ∀ sigma2 : Vec XR m,
    updateErrorVariance E.rng E.fuel (fun j => .fin (q j))
      ({ N0 := fun j => .fin (N0 j), N := NX, S20 := .own fun j => .fin (S20 j), sigma2 := sigma2 } :
        ErrModel XR m) s =
      .ok ({ N0 := fun j => .fin (N0 j), N := NX, S20 := .own fun j => .fin (S20 j),
             sigma2 := fun j => .fin ((N0 j * S20 j + q j) / (2 * (draw s).1 j)) }, (draw s).2)

/-- the whole loop: its rows are the iterates of the two steps -/
theorem joint_loop (hE : GoodOpts E) (hu : E.opts.updatesigma = true) (hai : E.opts.adaptint ≤ 0)
    (hn : 1 < E.opts.nsimu) (H : JointEnv E fixed cov q r lp A W) (D : IdealRng E.rng n μ)
    {draw : σ → (Fin m → ℝ) × σ} {z0 : ((Fin n → ℝ) × (Fin m → ℝ)) × σ}
    (hrate : ∀ θ, InsideOf E.problem (finVec θ) → ∀ j, 0 < N0 j * S20 j + q θ j)
    {next : ((Fin n → ℝ) × (Fin m → ℝ)) × σ → ((Fin n → ℝ) × (Fin m → ℝ)) × σ}
    (hnext : next = varianceStep (fun θ j => (N0 j * S20 j + q θ j) / 2) draw ∘
      moveStep D A W lp (max 1 E.opts.ntry))
    (hgood : ∀ j, j + 1 < E.opts.nsimu →
      DrawsFrom E N0 S20 NX draw (moveStep D A W lp (max 1 E.opts.ntry) (next^[j] z0)).2)
    {s0 : SimState XR σ N n m} (h0 : JointAt E.problem fixed cov q r N0 S20 NX z0 s0)
    (hfit : Fit E 0 1 (loopStart s0)) (hch : s0.chain[0]? = some (finVec z0.1.1))
    (hs2 : ∃ c, s0.s2chain = some c ∧ c[0]? = some (finVec z0.1.2)) :
    ∃ s', executeSimulator E s0 = .ok s' ∧ ∃ c, s'.s2chain = some c ∧ ∀ j < E.opts.nsimu,
      s'.chain[j]? = some (finVec (next^[j] z0).1.1) ∧ c[j]? = some (finVec (next^[j] z0).1.2) := by
  have hstart : Fit E 0 1 (loopStart s0) ∧
      JointAt E.problem fixed cov q r N0 S20 NX (next^[1 - 1] z0) (loopStart s0) ∧
      ∃ c, (loopStart s0).s2chain = some c ∧ ∀ j < 1, (loopStart s0).chain[j]? = some (finVec (next^[j] z0).1.1) ∧
        c[j]? = some (finVec (next^[j] z0).1.2) := by
    obtain ⟨c, c1, c2⟩ := hs2
    refine ⟨hfit, ⟨h0.theta, h0.ss, h0.prior, h0.sigma2, h0.pos, h0.inside, h0.errModel, h0.rng, h0.value, h0.cov⟩,
      c, c1, fun j hj => ?_⟩
    obtain rfl : j = 0 := by omega
    exact ⟨hch, c2⟩
  -- the draws of an iteration
  have hdraw : ∀ i s p, 1 ≤ i → i < E.opts.nsimu →
      JointAt E.problem fixed cov q r N0 S20 NX (next^[i - 1] z0) s → propose E s = .ok p →
      updateErrorVariance E.rng E.fuel (currentSet s p).ss s.errModel p.world.rng =
        .ok (sampledModel N0 S20 NX (next^[i] z0).1.2, (next^[i] z0).2) ∧
      (currentSet s p).theta = finVec (next^[i] z0).1.1 ∧ (currentSet s p).ss = finVec (q (next^[i] z0).1.1) ∧
      (currentSet s p).prior = .fin (r (next^[i] z0).1.1) ∧ InsideOf E.problem (finVec (next^[i] z0).1.1) ∧
      ∀ j, 0 < (next^[i] z0).1.2 j := by
    intro i s p hi hi' h hp
    obtain ⟨k, rfl⟩ : ∃ k, i = k + 1 := ⟨i - 1, by omega⟩
    rw [Nat.add_sub_cancel] at h
    set y := moveStep D A W lp (max 1 E.opts.ntry) (next^[k] z0) with hy
    obtain ⟨y1, y2, y3, y4, y5, y6⟩ := h.move H D hp hy
    have hz : next^[k + 1] z0 = varianceStep (fun θ j => (N0 j * S20 j + q θ j) / 2) draw y := by
      rw [iterate_succ_apply', hnext, comp_apply, ← hnext, hy]
    obtain ⟨g1, g2⟩ := hgood k (by omega)
    rw [← hy] at g1 g2
    rw [hz]
    refine ⟨?_, y2, y3, y4, y5, fun j => ?_⟩
    · rw [y3, h.errModel, y6]
      refine (g2 _ (hrate _ y5) _).trans ?_
      simp only [varianceStep, sampledModel]
      congr 3
      funext j
      simp only [finVec, div_div]
    · have := g1 j
      have := hrate _ y5 j
      simp only [varianceStep]
      positivity
  have hstep : ∀ i s s' p, 1 ≤ i → i < E.opts.nsimu → (Fit E 0 i s ∧
      JointAt E.problem fixed cov q r N0 S20 NX (next^[i - 1] z0) s ∧
      ∃ c, s.s2chain = some c ∧ ∀ j < i, s.chain[j]? = some (finVec (next^[j] z0).1.1) ∧
        c[j]? = some (finVec (next^[j] z0).1.2)) → StepSpec E i s s' p → (Fit E 0 (i + 1) s' ∧
      JointAt E.problem fixed cov q r N0 S20 NX (next^[i + 1 - 1] z0) s' ∧
      ∃ c, s'.s2chain = some c ∧ ∀ j < i + 1, s'.chain[j]? = some (finVec (next^[j] z0).1.1) ∧
        c[j]? = some (finVec (next^[j] z0).1.2)) := by
    rintro i s s' p hi hi' ⟨hf, hj, c, hc, hrows⟩ hp
    obtain ⟨d1, d2, d3, d4, d5, d6⟩ := hdraw i s p hi hi' hj hp.prop
    have he := hp.errModel
    rw [if_pos hu] at he
    obtain ⟨c', rg, e1, e2, e3, e4, e5⟩ := he
    rw [hc] at e1
    cases e1
    rw [d1] at e4
    have e6 := Except.ok.inj e4
    rw [Prod.mk.injEq] at e6
    have hsig := hp.oldSig
    rw [if_pos hu, ← e6.1] at hsig
    have hold := hp.old
    have hcov := hp.cov
    rw [if_neg (fun h => absurd h.1 (not_lt.2 hai))] at hcov
    have hidx := hf.idx
    have hidx' : s.chainIndex + 1 = i := by omega
    refine ⟨hf.step hE hp, ⟨?_, ?_, ?_, hsig, d6, d5, e6.1.symm, e5.trans e6.2.symm, ?_, hcov.trans hj.cov⟩, _, e3, ?_⟩
    · rw [hold]; exact d2
    · rw [hold]; exact d3
    · rw [hold]; exact d4
    · intro k hk
      rw [hp.value]
      exact ((propose_ok hp.prop).calls.value k hk).trans (hj.value k hk)
    · intro j hji
      rw [hp.chain, hidx', ← e6.1]
      rw [hidx'] at e2
      have hlt := hp.lt
      rw [hidx'] at hlt
      by_cases hjj : j = i
      · subst hjj
        rw [List.getElem?_set_self hlt, List.getElem?_set_self e2, d2]
        exact ⟨rfl, rfl⟩
      · rw [List.getElem?_set_ne (by omega), List.getElem?_set_ne (by omega)]
        exact hrows j (by omega)
  have hsafe : Safe (fun _ => False) (executeSimulator E s0) := by
    unfold executeSimulator
    refine (foldlM_safe (P := fun i s => Fit E 0 i s ∧
        JointAt E.problem fixed cov q r N0 S20 NX (next^[i - 1] z0) s ∧
        ∃ c, s.s2chain = some c ∧ ∀ j < i, s.chain[j]? = some (finVec (next^[j] z0).1.1) ∧
          c[j]? = some (finVec (next^[j] z0).1.2)) _ _ _ hstart (fun i s hi hi' h => ?_)
      (fun i s s' hi hi' h hs => ?_)).bind fun s' _ => ?_
    · refine h.1.safe' hE (by omega) (fun _ p hp => ?_) (fun _ h => absurd h (not_lt.2 hai))
      have hj := h.2.1
      have hp' : JointAt E.problem fixed cov q r N0 S20 NX (next^[i - 1] z0) (stepStart s) :=
        ⟨hj.theta, hj.ss, hj.prior, hj.sigma2, hj.pos, hj.inside, hj.errModel, hj.rng, hj.value, hj.cov⟩
      have := (hdraw i (stepStart s) p hi (by omega) hp' hp).1
      have e : updateErrorVariance E.rng E.fuel (currentSet s p).ss s.errModel p.world.rng =
        .ok (sampledModel N0 S20 NX (next^[i] z0).1.2, (next^[i] z0).2) := this
      rw [e]
      exact .ok _
    · obtain ⟨p, hp⟩ := simStep_ok hs
      exact hstep i s s' p hi (by omega) h hp
    · unfold finish
      rw [if_neg (by omega)]
      exact .ok _
  cases hx : executeSimulator E s0 with
  | error e => exact (hsafe e hx).elim
  | ok s' =>
    obtain ⟨-, s1, ⟨-, -, c, c1, c2⟩, hfin⟩ := executeSimulator_inv (P := fun i s => Fit E 0 i s ∧
        JointAt E.problem fixed cov q r N0 S20 NX (next^[i - 1] z0) s ∧
        ∃ c, s.s2chain = some c ∧ ∀ j < i, s.chain[j]? = some (finVec (next^[j] z0).1.1) ∧
          c[j]? = some (finVec (next^[j] z0).1.2)) hstart hstep hx
    refine ⟨s', rfl, c, by rw [hfin]; exact c1, fun j hj => ?_⟩
    rw [hfin]
    exact c2 j hj

end loop

section settings
variable {N m : ℕ}

/-- the setting `l` gives the numbers `c` to the data sets: one number for all, or one for each -/
def SettingGives (l : List XR) (c : Fin m → ℝ) : Prop :=
  (∃ k, l = [.fin k] ∧ ∀ j, c j = k) ∨ l = List.ofFn (finVec c)

/-- the numbers of observations `c` that belong to the sums of squares of data sets with `dn`
observations: those of the only data set, of all together for one sum of squares, or of each -/
def ObservationCounts (dn : List ℕ) (c : Fin m → ℝ) : Prop :=
  (∃ k : ℕ, dn = [k] ∧ ∀ j, c j = k) ∨ (m = 1 ∧ 1 < dn.length ∧ ∀ j, c j = dn.sum) ∨
  (1 < m ∧ ∀ j : Fin m, ∃ k : ℕ, dn[(j : ℕ)]? = some k ∧ c j = k)

/-- The settings ask for sampled variances with start `v`, prior numbers of observations `N0`, prior variances
`S20` and `Nobs` observations.  Without `N0` the code takes 0 if no variance is given either and 1 if
one is; without `S20` it takes the start, provided this is a single number. -/
structure SampledVariances (updatesigma : Bool) (ms : ModelSettings XR) (dn : List ℕ) (v N0 S20 Nobs : Fin m → ℝ) :
    Prop where
  sampled : updatesigma = true ∨ ms.N0.isSome
  sigma2 : (ms.sigma2 = none ∧ ∀ j, v j = 1) ∨ ∃ l, ms.sigma2 = some l ∧ SettingGives l v
  N0 : (ms.N0 = none ∧ ms.sigma2 = none ∧ ∀ j, N0 j = 0) ∨ (ms.N0 = none ∧ ms.sigma2.isSome ∧ ∀ j, N0 j = 1) ∨
    ∃ l, ms.N0 = some l ∧ SettingGives l N0
  S20 : SettingGives ms.S20 S20 ∨ (ms.S20 = [.nan] ∧
    ((∃ c, ms.sigma2 = some [c]) ∨ (ms.sigma2 = none ∧ ms.N0 = none)) ∧ S20 = v)
  obs : ObservationCounts dn Nobs

theorem SettingGives.check {l y : List XR} {c : Fin m → ℝ} {b : Bool} (h : SettingGives l c)
    (hc : checkSizeOfSetting l m = .ok (y, b)) : y = List.ofFn (finVec c) := by
  rcases checkSizeOfSetting_ok hc with ⟨-, a, rfl, rfl⟩ | ⟨-, h1, rfl, h2⟩
  · have ha : ∀ j : Fin m, a = .fin (c j) := by
      intro j
      rcases h with ⟨k, hk, hc⟩ | h
      · rw [hc j]; exact (List.cons.inj hk).1
      · have hm : m = 1 := by simpa using (congrArg List.length h).symm
        subst hm
        obtain rfl : j = 0 := Subsingleton.elim _ _
        simpa [finVec] using h
    refine List.ext_getElem (by simp) fun i h1 h2 => ?_
    simp only [List.getElem_replicate, List.getElem_ofFn]
    rw [ha ⟨i, by simpa using h1⟩]
    simp [finVec]
  · rcases h with ⟨k, hk, -⟩ | h
    · rw [hk] at h1; exact absurd rfl h1
    · exact h

theorem observations_check {dn : List ℕ} {c : Fin m → ℝ} (h : ObservationCounts dn c) {NX : List XR}
    (hc : checkSizeOfObservations (dn.map fun k : ℕ => (ofInt k : XR)) m = .ok NX) (j : Fin m) :
    NX[(j : ℕ)]? = some (.fin (c j)) := by
  rcases h with ⟨k, rfl, hk⟩ | ⟨rfl, h1, h2⟩ | ⟨h1, h2⟩
  · simp only [List.map_cons, List.map_nil, checkSizeOfObservations] at hc
    cases hc
    rw [List.getElem?_replicate, if_pos j.2, hk j]
    simp [ofInt]
  · unfold checkSizeOfObservations at hc
    split at hc
    · rename_i a ha
      have := congrArg List.length ha
      simp at this; omega
    · rw [if_neg (fun h => by have := h.1; rw [List.length_map] at this; omega),
        if_pos ⟨rfl, by simpa using h1⟩] at hc
      cases hc
      obtain rfl : j = 0 := Subsingleton.elim _ _
      have : (dn.map fun k : ℕ => (ofInt k : XR)) = (dn.map fun k : ℕ => (k : ℝ)).map .fin := by
        rw [List.map_map]
        apply List.map_congr_left
        intro k _
        simp [ofInt]
      rw [this, lsum_fin, h2]
      simp [Nat.cast_list_sum]
  · have hlen : 1 < dn.length := by
      obtain ⟨k, hk, -⟩ := h2 ⟨1, h1⟩
      exact (List.getElem?_eq_some_iff.1 hk).1
    obtain ⟨k, hk, e⟩ := h2 j
    unfold checkSizeOfObservations at hc
    split at hc
    · rename_i a ha
      have := congrArg List.length ha
      simp at this; omega
    · split at hc
      · cases hc
      · rw [if_neg (by omega)] at hc
        cases hc
        rw [List.getElem?_map, hk, e]
        simp [ofInt]

/-- the error model such settings lead to -/
theorem SampledVariances.errModel {u : Bool} {ms ms1 ms2 : ModelSettings XR} {dn : List ℕ} {nb : ℕ} {M : ErrModel XR m}
    {v N0 S20 Nobs : Fin m → ℝ} (h : SampledVariances u ms dn v N0 S20 Nobs) (hN : ms.N = none)
    (ha : ms.s20Alias = false)
    (h1 : checkDependentModelSettings ms dn nb = .ok ms1) (h2 : checkWrtNsos ms1 m = .ok ms2)
    (h3 : toErrModel ms2 m = .ok M) :
    ∃ NX, M = sampledModel N0 S20 NX v ∧
      checkSizeOfObservations (dn.map fun k : ℕ => (ofInt k : XR)) m = .ok NX := by
  obtain ⟨c1, c2, c3, -, c5⟩ := checkDependent_ok h1
  have hNN : ms1.N = some (dn.map fun k : ℕ => (ofInt k : XR)) := by
    unfold checkDependentModelSettings at h1
    rw [hN] at h1
    obtain ⟨n', e, h1⟩ := bind_ok.1 h1
    cases e
    cases hd : defaultN0 ms.sigma2 ms.N0 with
    | mk a b =>
      rw [hd] at h1
      cases h1
      dsimp only
      split <;> rfl
  have c5 := c5 ha
  obtain ⟨T20, f1, n0, N0', f2, sg, sigma2, f3, N1, N2, b1, b2, b3, b4, b5, b6, b7, rfl⟩ := checkWrtNsos_ok h2
  -- the variances
  have hs : sigma2 = List.ofFn (finVec v) := by
    rw [c1] at b4
    rcases h.sigma2 with ⟨e, hv⟩ | ⟨l, e, hl⟩
    · have hall : ∀ a ∈ sg, a = .fin 1 := by
        intro a ha
        rw [← Option.some.inj b4, e] at ha
        cases hn : ms.N0 with
        | none => rw [hn] at ha; simpa [defaultN0] using ha
        | some w =>
          rw [hn] at ha
          simp only [defaultN0, Option.getD_none] at ha
          simpa using List.eq_of_mem_replicate ha
      have hlen := checkSizeOfSetting_length b5
      have hall' : ∀ a ∈ sigma2, a = .fin 1 := by
        rcases checkSizeOfSetting_ok b5 with ⟨-, a, rfl, rfl⟩ | ⟨-, -, rfl, -⟩
        · intro x hx
          rw [List.eq_of_mem_replicate hx, hall a (by simp)]
          simp
        · exact hall
      refine List.ext_getElem (by simp [hlen]) fun i i1 i2 => ?_
      rw [hall' _ (List.getElem_mem i1)]
      simp [finVec, hv]
    · have : sg = l := by
        rw [← Option.some.inj b4, e]
        cases ms.N0 <;> rfl
      rw [this] at b5
      exact hl.check b5
  -- the prior weights
  have hn : N0' = List.ofFn (finVec N0) := by
    rw [c2] at b2
    have key : SettingGives n0 N0 := by
      rw [← Option.some.inj b2]
      rcases h.N0 with ⟨e1, e2, e3⟩ | ⟨e1, e2, e3⟩ | ⟨l, e1, e2⟩
      · rw [e1, e2]
        exact .inl ⟨0, by simp [defaultN0], e3⟩
      · obtain ⟨w, hw⟩ := Option.isSome_iff_exists.1 e2
        rw [e1, hw]
        exact .inl ⟨1, by simp [defaultN0], e3⟩
      · rw [e1]; exact e2
    exact key.check b3
  -- the prior variances
  have hf3 : (∃ c, ms.sigma2 = some [c]) ∨ (ms.sigma2 = none ∧ ms.N0 = none) → f3 = true := by
    intro hh
    have : ∃ c, sg = [c] := by
      rw [← Option.some.inj (c1.symm.trans b4)]
      rcases hh with ⟨c, e⟩ | ⟨e1, e2⟩
      · rw [e]; cases ms.N0 <;> exact ⟨c, rfl⟩
      · rw [e1, e2]; exact ⟨_, rfl⟩
    obtain ⟨c, rfl⟩ := this
    rcases checkSizeOfSetting_ok b5 with ⟨e, -⟩ | ⟨-, e, -⟩
    · exact e
    · exact absurd rfl e
  have hS : T20 = List.ofFn (finVec S20) ∧ (ms1.s20Alias && !f1 && !f3) = false := by
    rcases h.S20 with e | ⟨e1, e2, rfl⟩
    · have hal : ms1.s20Alias = false := by
        rw [c5, Bool.eq_false_iff]
        intro hh
        obtain ⟨a, a1, a2⟩ := List.any_eq_true.1 hh
        rcases e with ⟨k, e, -⟩ | e
        · rw [e, List.mem_singleton] at a1; subst a1; cases a2
        · rw [e, List.mem_ofFn] at a1
          obtain ⟨j, rfl⟩ := a1
          cases a2
      have : ms1.s20Now = ms.S20 := by unfold ModelSettings.s20Now; rw [hal, c3]; rfl
      rw [this] at b1
      exact ⟨e.check b1, by rw [hal]; rfl⟩
    · have hal : ms1.s20Alias = true := by rw [c5, e1]; rfl
      have : ms1.s20Now = sg := by unfold ModelSettings.s20Now; rw [hal, b4]; rfl
      rw [this, b5] at b1
      have b1 := Except.ok.inj b1
      rw [Prod.mk.injEq] at b1
      exact ⟨by rw [← b1.1, hs], by rw [hf3 e2]; simp⟩
  refine ⟨N2, ?_, ?_⟩
  · unfold toErrModel at h3
    dsimp only at h3
    split at h3
    · rename_i hl
      cases h3
      obtain ⟨rfl, hS2⟩ := hS
      subst hs hn
      simp only [sampledModel, hS2]
      congr 1
      · funext j; simp [finVec]
      · simp [finVec]
      · funext j; simp
    · cases h3
  · rw [hNN] at b6
    rw [← Option.some.inj b6] at b7
    exact b7

end settings

section run
variable {σ : Type} [MeasurableSpace σ] {μ : Measure σ} {G : Rng σ XR} {N m : ℕ} {flags : Fin N → Bool}

/-- The problem of sampling the joint posterior given by `q`, `r`, `Nobs`, `N0`, `S20` with a fixed
proposal.  The problem started at values `p.1` and variances `p.2` has the table `sp p.1` and the
settings `ms p.2`; `dom` are the starts that are considered. It is valid from each of them; the user's
functions have the values `q` and `r`, whatever the start; a proposal covariance is given and
nothing is adapted. -/
structure JointProblem (U : UserFuns XR N (nS flags) m) (G : Rng σ XR) (L : Lapack XR)
    (specs : Fin N → ParamSpec XR) (sp : (Fin (nS flags) → ℝ) → Fin N → ParamSpec XR) (opts : SimOpts XR)
    (extra : ExtraOpts XR (nS flags)) (ms : (Fin m → ℝ) → ModelSettings XR) (data : Data)
    (q : (Fin (nS flags) → ℝ) → Fin m → ℝ) (r : (Fin (nS flags) → ℝ) → ℝ) (Nobs N0 S20 : Fin m → ℝ)
    (dom : Set ((Fin (nS flags) → ℝ) × (Fin m → ℝ))) : Prop where
  starts : ∀ x, StartsAt flags specs x (sp x)
  within : ∀ p ∈ dom, InLimits flags specs (finVec p.1) ∧ ∀ j, 0 < p.2 j
  exact : ∀ p ∈ dom, ExactInputs G L (newObj (sp p.1) opts extra (ms p.2) data : Obj XR flags m)
  valid : ∀ p ∈ dom, ValidProblem U (newObj (sp p.1) opts extra (ms p.2) data : Obj XR flags m)
  noAdaptation : opts.adaptint ≤ 0
  covariance : extra.qcov.isSome
  noFactors : extra.RDR = none
  sosDim : 0 < m
  sos : ∀ θ ss, SosThere U specs (finVec θ) ss → ss = finVec (q θ)
  prior : ∀ p ∈ dom, ∀ mu sigma, UserPrior flags (sp p.1) mu sigma →
    ∀ θ, U.priorFun (finVec θ) mu sigma = .fin (r θ)
  settings : ∀ p ∈ dom, SampledVariances opts.updatesigma (ms p.2) data.n p.2 N0 S20 Nobs
  shapes : ∀ j, 0 < N0 j + Nobs j
  rates : ∀ θ, InLimits flags specs (finVec θ) → ∀ j, 0 < N0 j * S20 j + q θ j
  measurable : Measurable q ∧ Measurable r

theorem userPrior_setup {specs : Fin N → ParamSpec XR} :
    UserPrior flags specs (atParind flags fun k => setupPriorMu (specs k).priorMu (specs k).theta0)
      (atParind flags fun k => setupPriorSigma (specs k).priorSigma) := by
  intro i k hk
  have hik : parindOf flags i = k := by
    obtain ⟨_, hk⟩ := List.getElem?_eq_some_iff.1 hk
    exact hk
  unfold atParind
  dsimp only
  rw [hik]
  refine ⟨⟨fun hp => ?_, fun hp => ?_⟩, fun hb hl => ?_, fun hb => ?_⟩
  · unfold setupPriorMu; rw [if_neg (by rw [hp]; simp)]
  · unfold setupPriorMu; rw [if_pos hp]
  · unfold setupPriorSigma
    dsimp only
    have e : (if PyFloat.beq (specs k).priorSigma (lit 0) = true then PyFloat.inf
        else (specs k).priorSigma) = (specs k).priorSigma := if_neg (by rw [hb]; simp)
    rw [e, if_neg (by rw [hl]; simp)]
  · unfold setupPriorSigma
    dsimp only
    by_cases hb' : PyFloat.beq (specs k).priorSigma (lit 0) = true
    · simp only [if_pos hb', ite_self]
    · rcases hb with hb | hb
      · exact absurd hb hb'
      · simp only [if_neg hb', if_pos hb]

/-- `draw` is the draw of `update_error_variance` in units that do not depend on the sums of squares: with
probability one, and with enough fuel, every call divides `N0 S20 + q` by twice its values. -/
def DrawsVariances (G : Rng σ XR) (μ : Measure σ) (data : Data) (N0 S20 : Fin m → ℝ) (draw : σ → (Fin m → ℝ) × σ) : Prop :=
  ∃ NX, checkSizeOfObservations (data.n.map fun k : ℕ => (ofInt k : XR)) m = .ok NX ∧
    ∀ᵐ s ∂μ, (∀ j, 0 < (draw s).1 j) ∧ ∃ K, ∀ fuel, K ≤ fuel → ∀ q : Fin m → ℝ,
      (∀ j, 0 < N0 j * S20 j + q j) → ∀ sigma2 : Vec XR m,
      updateErrorVariance G fuel (fun j => .fin (q j))
        ({ N0 := fun j => .fin (N0 j), N := NX, S20 := .own fun j => .fin (S20 j), sigma2 := sigma2 } :
          ErrModel XR m) s =
        .ok ({ N0 := fun j => .fin (N0 j), N := NX, S20 := .own fun j => .fin (S20 j),
               sigma2 := fun j => .fin ((N0 j * S20 j + q j) / (2 * (draw s).1 j)) }, (draw s).2)

/-- There is such a draw, the same for runs of all lengths, with independent gamma values. -/
theorem joint_draw [IsProbabilityMeasure μ] {U : UserFuns XR N (nS flags) m} {L : Lapack XR}
    {specs : Fin N → ParamSpec XR} {sp : (Fin (nS flags) → ℝ) → Fin N → ParamSpec XR} {opts : SimOpts XR}
    {extra : ExtraOpts XR (nS flags)} {ms : (Fin m → ℝ) → ModelSettings XR} {data : Data}
    {q : (Fin (nS flags) → ℝ) → Fin m → ℝ} {r : (Fin (nS flags) → ℝ) → ℝ} {Nobs N0 S20 : Fin m → ℝ}
    {dom : Set ((Fin (nS flags) → ℝ) × (Fin m → ℝ))}
    (H : JointProblem U G L specs sp opts extra ms data q r Nobs N0 S20 dom)
    (D1 : IdealRng G 1 μ) {p0 : (Fin (nS flags) → ℝ) × (Fin m → ℝ)} (hp0 : p0 ∈ dom) :
    ∃ draw : σ → (Fin m → ℝ) × σ,
      MeasurePreserving draw μ
        ((Measure.pi fun j => ProbabilityTheory.gammaMeasure (1 / 2 * (N0 j + Nobs j)) 1).prod μ) ∧
      DrawsVariances G μ data N0 S20 draw := by
  obtain ⟨s0⟩ := nonempty_of_isProbabilityMeasure μ
  obtain ⟨I0, st0, t0, Q0, hset0, ht0, hQ0, hpd0⟩ := valid_setup (H.exact p0 hp0) (H.valid p0 hp0) s0
  obtain ⟨NX, hNX⟩ : ∃ NX, checkSizeOfObservations (data.n.map fun k : ℕ => (ofInt k : XR)) m = .ok NX := by
    obtain ⟨ms1, c1, c2, c3⟩ := (setup_start hset0).1.init.ms
    obtain ⟨NX, -, e2⟩ := (H.settings p0 hp0).errModel (H.valid p0 hp0).observations
      (H.valid p0 hp0).settingsFresh c1 c2 c3
    exact ⟨NX, e2⟩
  have hNX' := fun j => observations_check (H.settings p0 hp0).obs hNX j
  obtain ⟨draw, hdraw, hae⟩ := updateErrorVariance_draw (S20 := S20) D1 H.shapes NX hNX'
  exact ⟨draw, hdraw, NX, hNX, hae⟩

/-- The rows of every run are the iterates of `moveStep` followed by `varianceStep`; the factors depend
only on the proposal covariance and the scales of the stages. -/
theorem joint_rows_of [IsProbabilityMeasure μ] {U : UserFuns XR N (nS flags) m} {L : Lapack XR}
    {specs : Fin N → ParamSpec XR} {sp : (Fin (nS flags) → ℝ) → Fin N → ParamSpec XR} {opts : SimOpts XR}
    {extra : ExtraOpts XR (nS flags)} {ms : (Fin m → ℝ) → ModelSettings XR} {data : Data}
    {q : (Fin (nS flags) → ℝ) → Fin m → ℝ} {r : (Fin (nS flags) → ℝ) → ℝ} {Nobs N0 S20 : Fin m → ℝ}
    {dom : Set ((Fin (nS flags) → ℝ) × (Fin m → ℝ))}
    (H : JointProblem U G L specs sp opts extra ms data q r Nobs N0 S20 dom) (D : IdealRng G (nS flags) μ)
    {draw : σ → (Fin m → ℝ) × σ}
    (hdraw : MeasurePreserving draw μ
      ((Measure.pi fun j => ProbabilityTheory.gammaMeasure (1 / 2 * (N0 j + Nobs j)) 1).prod μ))
    (hdraws : DrawsVariances G μ data N0 S20 draw) {p0 : (Fin (nS flags) → ℝ) × (Fin m → ℝ)} (hp0 : p0 ∈ dom) :
    ∃ (qc : Qcov XR) (Q : Mat XR (nS flags)) (A : ℕ → Matrix (Fin (nS flags)) (Fin (nS flags)) ℝ)
      (W : ℕ → Fin (nS flags) → Fin (nS flags) → ℝ),
      extra.qcov = some qc ∧ setupRMatrix L qc (parindOf flags) = .ok (finMx (A 0), Q) ∧
      (∀ k < max 1 opts.ntry.toNat, A k * Matrix.of (W k) = 1) ∧
      (∃ ds : List ℝ, extra.drscale = ds.map .fin ∧
        ∀ k, A k = (if 1 < opts.ntry then (stageScale ds k)⁻¹ • A 0 else A 0) ∧ W k = (A k)⁻¹) ∧
      ∀ p ∈ dom, ∀ᵐ s ∂μ, ∃ K, ∀ fuel, K ≤ fuel →
        ∃ out, runSimulation U G L fuel (newObj (sp p.1) opts extra (ms p.2) data) s false = .ok out ∧
          ∃ c, out.results.s2chain = some c ∧ ∀ j : ℕ, (j : ℤ) < opts.nsimu →
            out.results.chain[j]? = some (finVec (((varianceStep
              (fun (θ : Fin (nS flags) → ℝ) j => (N0 j * S20 j + q θ j) / 2) draw ∘
              moveStep D A W (logPost flags specs q r) (max 1 opts.ntry.toNat))^[j] (p, s)).1.1)) ∧
            c[j]? = some (finVec (((varianceStep
              (fun (θ : Fin (nS flags) → ℝ) j => (N0 j * S20 j + q θ j) / 2) draw ∘
              moveStep D A W (logPost flags specs q r) (max 1 opts.ntry.toNat))^[j] (p, s)).1.2)) := by
  classical
  obtain ⟨s0⟩ := nonempty_of_isProbabilityMeasure μ
  -- the factor
  obtain ⟨qc, hqc⟩ := Option.isSome_iff_exists.1 H.covariance
  have hcov : ∀ p (s : σ) I st o1, p ∈ dom →
      setupSimulator U L (newObj (sp p.1) opts extra (ms p.2) data) s false = .ok (o1, I, st) →
      ∃ Q, setupRMatrix L qc (parindOf flags) = .ok (I.cov.R, Q) := by
    intro p s I st o1 hp hset
    obtain ⟨-, -, -, -, -, -, -, hjr, -⟩ := setup_fresh hset
    have ho := hjr (H.valid p hp).noRestart
    have x1 : o1.extra.RDR = none := by rw [ho]; exact H.noFactors
    have x2 : o1.extra.qcov = some qc := by rw [ho]; exact hqc
    obtain ⟨_, ⟨R', h1, h2⟩, _⟩ := initCovState_ok (initializeSimulation_cov (setupSimulator_init hset))
    rw [x2] at h1
    refine ⟨I.cov.qcov, ?_⟩
    split at h2
    · obtain ⟨l, il, g1, -⟩ := h2
      rw [x1] at g1
      unfold setupRDRMatrix at g1
      dsimp only at g1
      obtain ⟨iR, _, g1⟩ := bind_ok.1 g1
      obtain ⟨⟨l', il'⟩, _, g1⟩ := bind_ok.1 g1
      have : R' = I.cov.R := congrArg (fun x => x.1) (Except.ok.inj g1)
      rw [← this]; exact h1
    · rw [h2.1]; exact h1
  obtain ⟨I0, st0, t0, Q0, hset0, ht0, hQ0, hpd0⟩ := valid_setup (H.exact p0 hp0) (H.valid p0 hp0) s0
  obtain ⟨R, hR, hunit⟩ :=
    (start_fin (fuel := 0) (H.exact p0 hp0) hset0 nofun (H.valid p0 hp0).delayed ht0 hQ0 hpd0).2.cov.R
  rw [(setup_start hset0).1.cov] at hR
  obtain ⟨Q1, hQ1⟩ := hcov _ _ _ _ _ hp0 hset0
  obtain ⟨ds, hds, hds0⟩ := (H.exact p0 hp0).drscale
  have hds : extra.drscale = ds.map .fin := hds
  let A : ℕ → Matrix (Fin (nS flags)) (Fin (nS flags)) ℝ := fun k =>
    if 1 < opts.ntry then (stageScale ds k)⁻¹ • R else R
  let W : ℕ → Fin (nS flags) → Fin (nS flags) → ℝ := fun k =>
    ((A k)⁻¹ : Matrix (Fin (nS flags)) (Fin (nS flags)) ℝ)
  have hA0 : A 0 = R := by
    by_cases h : 1 < opts.ntry <;> simp [A, h, stageScale]
  have hAW : ∀ k < max 1 opts.ntry.toNat, A k * Matrix.of (W k) = 1 := by
    intro k hk
    change A k * (A k)⁻¹ = 1
    by_cases hnt : 1 < opts.ntry
    · obtain ⟨l, il, -, -, -, -, h6⟩ := C17_start (H.exact p0 hp0).lapack hset0 H.noFactors
        ((H.valid p0 hp0).delayed hnt).method (by change 0 < opts.ntry; omega) hds hds0 hR
      change ∀ k < opts.ntry.toNat, _ at h6
      obtain ⟨b, -, -, hb⟩ := h6 k (by omega)
      simp only [A, if_pos hnt]
      rw [Matrix.inv_eq_right_inv hb, hb]
    · simp only [A, if_neg hnt]
      exact Matrix.mul_nonsing_inv _ ((Matrix.isUnit_iff_isUnit_det _).1 hunit)
  -- the error model
  obtain ⟨NX, hNX, hae⟩ := hdraws
  -- the two steps
  have hd := measurable_logPost_density (flags := flags) (specs := specs) H.measurable.1 H.measurable.2
  have hb : Measurable fun (θ : Fin (nS flags) → ℝ) j => (N0 j * S20 j + q θ j) / 2 :=
    measurable_pi_iff.2 fun j =>
      (((measurable_pi_apply j).comp H.measurable.1).const_add _).div_const _
  have hshape : ∀ j, 0 < 1 / 2 * (N0 j + Nobs j) := fun j => by have := H.shapes j; positivity
  set lp := logPost flags specs q r with hlpdef
  set step1 := moveStep D A W lp (max 1 opts.ntry.toNat) with hstep1
  set step2 := varianceStep (fun (θ : Fin (nS flags) → ℝ) j => (N0 j * S20 j + q θ j) / 2) draw with hstep2
  have hfresh1 : Fresh μ step1 := fresh_moveStep D hd hAW
  have hfresh : Fresh μ (step2 ∘ step1) := (fresh_varianceStep hb hshape hdraw).comp hfresh1
  refine ⟨qc, Q1, A, W, hqc, by rw [hA0, ← hR]; exact hQ1, hAW, ⟨ds, hds, fun k => ⟨by rw [hA0], rfl⟩⟩, fun p hp => ?_⟩
  have hall : ∀ᵐ s ∂μ, ∀ j, (∀ i, 0 < (draw (step1 ((step2 ∘ step1)^[j] (p, s))).2).1 i) ∧ ∃ K, ∀ fuel, K ≤ fuel →
      ∀ q : Fin m → ℝ, (∀ j, 0 < N0 j * S20 j + q j) → ∀ sigma2 : Vec XR m,
        updateErrorVariance G fuel (fun j => .fin (q j))
          ({ N0 := fun j => .fin (N0 j), N := NX, S20 := .own fun j => .fin (S20 j), sigma2 := sigma2 } :
            ErrModel XR m) (step1 ((step2 ∘ step1)^[j] (p, s))).2 =
          .ok ({ N0 := fun j => .fin (N0 j), N := NX, S20 := .own fun j => .fin (S20 j),
                 sigma2 := fun i => .fin ((N0 i * S20 i + q i) /
                   (2 * (draw (step1 ((step2 ∘ step1)^[j] (p, s))).2).1 i)) },
               (draw (step1 ((step2 ∘ step1)^[j] (p, s))).2).2) :=
    ae_all_iff.2 fun j => (hfresh1.comp (hfresh.iterate j)).ae hae p
  filter_upwards [hall] with s hs
  choose hpos K hK using hs
  refine ⟨(Finset.range opts.nsimu.toNat).sup K, fun fuel hfuel => ?_⟩
  have hval := H.valid p hp
  obtain ⟨I, st, t, Q, hset, -, -, -⟩ := valid_setup (H.exact p hp) hval s
  obtain ⟨hst, hn0, hci, hchain, -, hs2, -, -⟩ := setup_fresh hset
  obtain ⟨hg, hfit⟩ := start_fit (G := G) (fuel := fuel) hset nofun hval.sampled hval.sos hval.delayed hval.data
  have hopts : I.opts = checkDependentSimulationOptions opts (ms p.2).N0.isSome := by
    rw [hst.init.opts, hst.opts, hst.ms]; rfl
  have hnt : I.opts.ntry = opts.ntry := by rw [hopts]; rfl
  have hns : I.opts.nsimu = opts.nsimu := by rw [hopts]; rfl
  have hai : I.opts.adaptint = opts.adaptint := by rw [hopts]; rfl
  have hu : I.opts.updatesigma = true := by
    rw [hopts]
    unfold checkDependentSimulationOptions
    dsimp only
    rcases (H.settings p hp).sampled with e | e
    · rw [e, ite_self]
    · rw [if_pos e]
  obtain ⟨NX', hM, hNXe⟩ : ∃ NX', I.errModel = sampledModel N0 S20 NX' p.2 ∧ NX' = NX := by
    obtain ⟨ms1, c1, c2, c3⟩ := hst.init.ms
    obtain ⟨NX', e1, e2⟩ := (H.settings p hp).errModel hval.observations hval.settingsFresh c1 c2 c3
    rw [hNX] at e2
    exact ⟨NX', e1, (Except.ok.inj e2).symm⟩
  subst hNXe
  have hS := H.starts p.1
  have hinside : ∀ θ, InsideOf I.problem (finVec θ) ↔ InLimits flags specs (finVec θ) := by
    intro θ
    unfold InsideOf
    rw [hst.init.lower, hst.init.upper, ← hS.inLimits]
    constructor
    · intro hout
      exact inLimits_of hout
    · intro hin
      rw [isOutside_eq_false]
      intro i
      exact hin i (parindOf flags i) (List.getElem?_eq_getElem _)
  have hsosOf : ∀ θ ss, SosOf I.problem I.world.value (finVec θ) ss → ss = finVec (q θ) := by
    rintro θ ss ⟨val, d1, d2⟩
    rw [hst.init.parind] at d1 d2
    rw [hst.init.style1, hst.init.sosFun] at d2
    refine H.sos θ ss ?_
    rw [← hS.sosThere]
    refine ⟨_, belongsTo_of (v := writeAt (parindOf flags) (finVec θ) val)
      (fun i => writeAt_sampled (parindOf_injective flags) i) (fun k hk => ?_), d2⟩
    rw [writeAt_fixed (not_parindOf hk), d1 k (not_parindOf hk), hst.init.value]
    rfl
  have hprior : ∀ θ, I.problem.prior (finVec θ) = .fin (r θ) := by
    intro θ
    rw [hst.init.priorFun]
    exact H.prior p hp _ _ userPrior_setup θ
  have hRR : I.cov.R = finMx R := by
    obtain ⟨Q2, hQ2⟩ := hcov _ _ _ _ _ hp hset
    rw [hQ1] at hQ2
    rw [← hR]; exact (congrArg Prod.fst (Except.ok.inj hQ2)).symm
  have hJE : JointEnv (⟨I.problem, G, L, runOpts I.opts extra, fuel⟩ : Env XR σ N (nS flags) m) I.world.value I.cov
      q r lp A W := by
    refine ⟨H.sosDim, hsosOf, hprior, fun v θ hh => if_neg fun h => hh ((hinside θ).2 h),
      fun v θ hh => if_pos ((hinside θ).1 hh), by rw [hA0, hRR], fun h1 => ?_⟩
    have h1' : 1 < opts.ntry := by
      have : 1 < I.opts.ntry.toNat := h1
      omega
    obtain ⟨l, il, e1, e2, e3, e4, e5⟩ := C17_start (H.exact p hp).lapack hset H.noFactors (hval.delayed h1').method
      (by change 0 < opts.ntry; omega) hds hds0 hRR
    have hnn : I.opts.ntry.toNat = opts.ntry.toNat := by rw [hnt]
    refine ⟨l, il, e1, e2, e3.trans hnn.symm, fun k hk => ?_⟩
    have hk' : k < opts.ntry.toNat := by
      have : k < I.opts.ntry.toNat := hk
      omega
    obtain ⟨b, b1, b2, b3⟩ := e5 k hk'
    have hAk : A k = (stageScale ds k)⁻¹ • R := if_pos h1'
    refine ⟨by rw [hAk]; exact b1, ?_⟩
    rw [b2]
    congr 2
    change b = (A k)⁻¹
    rw [hAk]
    exact (Matrix.inv_eq_right_inv b3).symm
  have hth : I.initialSet.theta = finVec p.1 := by
    rw [hst.init.theta]
    funext i
    change (sp p.1 (parindOf flags i)).theta0 = _
    rw [hS.1 i _ (sampled_get i)]
    rfl
  have hins : InsideOf I.problem (finVec p.1) := (hinside p.1).2 (H.within p hp).1
  have hJ0 : JointAt I.problem I.world.value I.cov q r N0 S20 NX' (p, s) st := by
    refine ⟨by rw [hst.oldSet, hth], ?_, ?_, ?_, (H.within p hp).2, hins, ?_, ?_, ?_, hst.cov⟩
    · rw [hst.oldSet]
      refine hsosOf p.1 _ ⟨I.world.value, fun _ _ => rfl, ?_⟩
      have : writeAt I.problem.parind (finVec p.1) I.world.value = I.world.value := by
        rw [hst.init.parind]
        funext k
        cases hk : flags k with
        | true =>
          obtain ⟨i, rfl⟩ := exists_parindOf hk
          rw [writeAt_sampled (parindOf_injective flags), ← hth, hst.init.theta, hst.init.value]
          rfl
        | false => exact writeAt_fixed (not_parindOf hk)
      rw [this, hst.init.style1, hst.init.sosFun]
      exact hst.init.sos
    · rw [hst.oldSet, hst.init.prior, hth]; exact hprior p.1
    · rw [hst.oldSet, hst.init.sigma2, hM]; rfl
    · rw [hst.errModel, hM]
    · rw [hst.world]; exact hst.init.rng
    · intro k _; rw [hst.world]
  have hn1 : 1 < I.opts.nsimu.toNat := by
    have : 1 < opts.nsimu := hval.nsimu
    omega
  have hKm : (max 1 (runOpts I.opts extra).ntry) = max 1 opts.ntry.toNat := by
    change max 1 I.opts.ntry.toNat = _
    rw [hnt]
  obtain ⟨s', hx, c, hc, hrows⟩ := joint_loop
    (E := (⟨I.problem, G, L, runOpts I.opts extra, fuel⟩ : Env XR σ N (nS flags) m)) hg hu
    (by change I.opts.adaptint ≤ 0; rw [hai]; exact H.noAdaptation) hn1 hJE D (draw := draw) (z0 := (p, s))
    (fun θ h => H.rates θ ((hinside θ).1 h)) (next := step2 ∘ step1) (by dsimp only; rw [hKm])
    (fun j hj => by
      dsimp only
      rw [hKm]
      have hj' : j + 1 < I.opts.nsimu.toNat := hj
      refine ⟨hpos j, hK j fuel (le_trans ?_ hfuel)⟩
      exact Finset.le_sup (f := K) (Finset.mem_range.2 (by rw [hns] at hj'; omega)))
    hJ0 (by rw [hci] at hfit; exact hfit)
    (by rw [hchain, hth]; exact List.getElem?_set_self (by simp [zeroRows]; omega))
    ⟨_, by rw [hs2, if_pos hu], by rw [hM]; exact List.getElem?_set_self (by simp [zeroRows]; omega)⟩
  obtain ⟨out, ho, ho1, ho2, ho3⟩ := run_of_loop hset nofun hval.sampled hval.sos hval.delayed hval.data hx
  refine ⟨out, ho, c, ?_, fun j hj => ?_⟩
  · obtain ⟨o1, I', s1, g1, g2, g3, g4, g5⟩ := runSimulation_ok ho
    obtain ⟨-, -, -, -, -, -, -, e, -⟩ := generateResults_ok g3
    rw [e, ho1, hc]
  · have hj' : j < I.opts.nsimu.toNat := by omega
    rw [ho3]
    exact hrows j hj'

/-- The rows of every run are the iterates of `moveStep` followed by `varianceStep`; the factors do not depend on
the start or the length of the run. -/
theorem joint_rows [IsProbabilityMeasure μ] {U : UserFuns XR N (nS flags) m} {L : Lapack XR}
    {specs : Fin N → ParamSpec XR} {sp : (Fin (nS flags) → ℝ) → Fin N → ParamSpec XR} {opts : SimOpts XR}
    {extra : ExtraOpts XR (nS flags)} {ms : (Fin m → ℝ) → ModelSettings XR} {data : Data}
    {q : (Fin (nS flags) → ℝ) → Fin m → ℝ} {r : (Fin (nS flags) → ℝ) → ℝ} {Nobs N0 S20 : Fin m → ℝ}
    {dom : Set ((Fin (nS flags) → ℝ) × (Fin m → ℝ))}
    (H : JointProblem U G L specs sp opts extra ms data q r Nobs N0 S20 dom) (D : IdealRng G (nS flags) μ)
    (D1 : IdealRng G 1 μ) {p0 : (Fin (nS flags) → ℝ) × (Fin m → ℝ)} (hp0 : p0 ∈ dom) :
    ∃ (qc : Qcov XR) (Q : Mat XR (nS flags)) (A : ℕ → Matrix (Fin (nS flags)) (Fin (nS flags)) ℝ)
      (W : ℕ → Fin (nS flags) → Fin (nS flags) → ℝ) (draw : σ → (Fin m → ℝ) × σ),
      extra.qcov = some qc ∧ setupRMatrix L qc (parindOf flags) = .ok (finMx (A 0), Q) ∧
      (∀ k < max 1 opts.ntry.toNat, A k * Matrix.of (W k) = 1) ∧
      MeasurePreserving draw μ
        ((Measure.pi fun j => ProbabilityTheory.gammaMeasure (1 / 2 * (N0 j + Nobs j)) 1).prod μ) ∧
      (∀ᵐ s ∂μ, ∀ i, 0 < (draw s).1 i) ∧
      ∀ p ∈ dom, ∀ᵐ s ∂μ, ∃ K, ∀ fuel, K ≤ fuel →
        ∃ out, runSimulation U G L fuel (newObj (sp p.1) opts extra (ms p.2) data) s false = .ok out ∧
          ∃ c, out.results.s2chain = some c ∧ ∀ j : ℕ, (j : ℤ) < opts.nsimu →
            out.results.chain[j]? = some (finVec (((varianceStep
              (fun (θ : Fin (nS flags) → ℝ) j => (N0 j * S20 j + q θ j) / 2) draw ∘
              moveStep D A W (logPost flags specs q r) (max 1 opts.ntry.toNat))^[j] (p, s)).1.1)) ∧
            c[j]? = some (finVec (((varianceStep
              (fun (θ : Fin (nS flags) → ℝ) j => (N0 j * S20 j + q θ j) / 2) draw ∘
              moveStep D A W (logPost flags specs q r) (max 1 opts.ntry.toNat))^[j] (p, s)).1.2)) := by
  obtain ⟨draw, hdraw, hdraws⟩ := joint_draw H D1 hp0
  obtain ⟨qc, Q, A, W, h1, h2, h3, -, h4⟩ := joint_rows_of H D hdraw hdraws hp0
  obtain ⟨NX, -, hae⟩ := hdraws
  exact ⟨qc, Q, A, W, draw, h1, h2, h3, hdraw, hae.mono fun s hs => hs.1, h4⟩

/-- **C84**, the transition.  There is one map of parameter values, variances and generator state that keeps
the product of the joint posterior and the law of the generator state.  From every start, with
probability one, the run returns, and its rows of values and variances are the iterates of that map. -/
theorem C84_transition [IsProbabilityMeasure μ] {U : UserFuns XR N (nS flags) m} {L : Lapack XR}
    {specs : Fin N → ParamSpec XR} {sp : (Fin (nS flags) → ℝ) → Fin N → ParamSpec XR} {opts : SimOpts XR}
    {extra : ExtraOpts XR (nS flags)} {ms : (Fin m → ℝ) → ModelSettings XR} {data : Data}
    {q : (Fin (nS flags) → ℝ) → Fin m → ℝ} {r : (Fin (nS flags) → ℝ) → ℝ} {Nobs N0 S20 : Fin m → ℝ}
    {dom : Set ((Fin (nS flags) → ℝ) × (Fin m → ℝ))}
    (H : JointProblem U G L specs sp opts extra ms data q r Nobs N0 S20 dom) (D : IdealRng G (nS flags) μ)
    (D1 : IdealRng G 1 μ) :
    ∃ next : ((Fin (nS flags) → ℝ) × (Fin m → ℝ)) × σ → ((Fin (nS flags) → ℝ) × (Fin m → ℝ)) × σ,
      MeasurePreserving next ((jointPosterior flags specs q r Nobs N0 S20).prod μ)
        ((jointPosterior flags specs q r Nobs N0 S20).prod μ) ∧
      ∀ p ∈ dom, ∀ᵐ s ∂μ, ∃ K, ∀ fuel, K ≤ fuel →
        ∃ out, runSimulation U G L fuel (newObj (sp p.1) opts extra (ms p.2) data) s false = .ok out ∧
          ∃ c, out.results.s2chain = some c ∧ ∀ j : ℕ, (j : ℤ) < opts.nsimu →
            out.results.chain[j]? = some (finVec (next^[j] (p, s)).1.1) ∧
            c[j]? = some (finVec (next^[j] (p, s)).1.2) := by
  classical
  by_cases hne : dom.Nonempty
  swap
  · exact ⟨id, MeasurePreserving.id _, fun p hp => absurd ⟨p, hp⟩ hne⟩
  obtain ⟨p0, hp0⟩ := hne
  obtain ⟨-, -, A, W, draw, -, -, hAW, hdraw, -, hrun⟩ := joint_rows H D D1 hp0
  have hd := measurable_logPost_density (flags := flags) (specs := specs) H.measurable.1 H.measurable.2
  have hb : Measurable fun (θ : Fin (nS flags) → ℝ) j => (N0 j * S20 j + q θ j) / 2 :=
    measurable_pi_iff.2 fun j =>
      (((measurable_pi_apply j).comp H.measurable.1).const_add _).div_const _
  have hshape : ∀ j, 0 < 1 / 2 * (N0 j + Nobs j) := fun j => by have := H.shapes j; positivity
  have hf : Measurable fun p => ENNReal.ofReal (jointDensity flags specs q r Nobs N0 S20 p) :=
    (measurable_jointDensity H.measurable.1 H.measurable.2).ennreal_ofReal
  set lp := logPost flags specs q r with hlpdef
  have hmove := moveStep_invariant D (A := A) (W := W) (lp := lp) (volume : Measure (Fin m → ℝ)) hd hAW
    (c := fun v => if ∀ j, 0 < v j then ENNReal.ofReal ((∏ j, v j ^ (-(Nobs j / 2))) *
        ∏ j, v j ^ (-(N0 j / 2) - 1) * Real.exp (-(N0 j * S20 j / (2 * v j)))) else 0) hf
    (fun p => jointDensity_values p)
  have hvar := varianceStep_invariant (volume : Measure (Fin (nS flags) → ℝ)) hb hshape hdraw
    (C := fun θ => if InLimits flags specs (finVec θ) then ENNReal.ofReal (Real.exp (-(1 / 2) * r θ) *
        ∏ j, (Real.Gamma (1 / 2 * (N0 j + Nobs j)) /
          ((N0 j * S20 j + q θ j) / 2) ^ (1 / 2 * (N0 j + Nobs j)))) else 0)
    (fun θ hθ j => by
      have hin : InLimits flags specs (finVec θ) := by
        by_contra hh
        exact hθ (if_neg hh)
      have := H.rates θ hin j
      positivity) hf (fun p => jointDensity_variances H.shapes H.rates p)
  exact ⟨_, hvar.comp hmove, hrun⟩

/-- **C84** the recorded pairs of parameter values and error variances have the joint posterior as
their stationary law.  There are measurable functions `row j` of the start and the generator state.
From every start considered, with probability one, the run returns, and row `j` of the two chains
is `row j`.  If the start is distributed as the joint posterior, independently of the generator
state, then so is every row, and the joint law of consecutive rows does not depend on where they are. -/
theorem C84_joint_posterior [IsProbabilityMeasure μ] {U : UserFuns XR N (nS flags) m} {L : Lapack XR}
    {specs : Fin N → ParamSpec XR} {sp : (Fin (nS flags) → ℝ) → Fin N → ParamSpec XR} {opts : SimOpts XR}
    {extra : ExtraOpts XR (nS flags)} {ms : (Fin m → ℝ) → ModelSettings XR} {data : Data}
    {q : (Fin (nS flags) → ℝ) → Fin m → ℝ} {r : (Fin (nS flags) → ℝ) → ℝ} {Nobs N0 S20 : Fin m → ℝ}
    {dom : Set ((Fin (nS flags) → ℝ) × (Fin m → ℝ))}
    (H : JointProblem U G L specs sp opts extra ms data q r Nobs N0 S20 dom) (D : IdealRng G (nS flags) μ)
    (D1 : IdealRng G 1 μ) :
    ∃ row : ℕ → ((Fin (nS flags) → ℝ) × (Fin m → ℝ)) × σ → (Fin (nS flags) → ℝ) × (Fin m → ℝ),
      (∀ p ∈ dom, ∀ᵐ s ∂μ, ∃ K, ∀ fuel, K ≤ fuel →
        ∃ out, runSimulation U G L fuel (newObj (sp p.1) opts extra (ms p.2) data) s false = .ok out ∧
          ∃ c, out.results.s2chain = some c ∧ ∀ j : ℕ, (j : ℤ) < opts.nsimu →
            out.results.chain[j]? = some (finVec (row j (p, s)).1) ∧ c[j]? = some (finVec (row j (p, s)).2)) ∧
      (∀ j, Measurable (row j)) ∧
      (∀ z, row 0 z = z.1) ∧
      (∀ j, Measure.map (row j) ((jointPosterior flags specs q r Nobs N0 S20).prod μ) =
        jointPosterior flags specs q r Nobs N0 S20) ∧
      ∀ j k, Measure.map (fun z (i : Fin (k + 1)) => row (j + i) z)
          ((jointPosterior flags specs q r Nobs N0 S20).prod μ) =
        Measure.map (fun z (i : Fin (k + 1)) => row i z)
          ((jointPosterior flags specs q r Nobs N0 S20).prod μ) := by
  obtain ⟨next, hmp, hrows⟩ := C84_transition H D D1
  refine ⟨fun j z => (next^[j] z).1, hrows, fun j => measurable_fst.comp (hmp.iterate j).measurable,
    fun z => rfl, fun j => ?_, fun j k => ?_⟩
  · change Measure.map (Prod.fst ∘ next^[j]) _ = _
    rw [← Measure.map_map measurable_fst (hmp.iterate j).measurable, (hmp.iterate j).map_eq]
    rw [Measure.map_fst_prod, measure_univ, one_smul]
  · have hm : Measurable fun (z : ((Fin (nS flags) → ℝ) × (Fin m → ℝ)) × σ) (i : Fin (k + 1)) =>
        (next^[(i : ℕ)] z).1 :=
      measurable_pi_iff.2 fun i => measurable_fst.comp (hmp.iterate i).measurable
    have : (fun (z : ((Fin (nS flags) → ℝ) × (Fin m → ℝ)) × σ) (i : Fin (k + 1)) => (next^[j + (i : ℕ)] z).1) =
        (fun z (i : Fin (k + 1)) => (next^[(i : ℕ)] z).1) ∘ next^[j] := by
      funext z i
      simp only [Function.comp_apply]
      rw [← Function.iterate_add_apply, Nat.add_comm]
    rw [this, ← Measure.map_map hm (hmp.iterate j).measurable, (hmp.iterate j).map_eq]

end run

/-! ### Example -/

/-- the start `v` of the variance, with a prior of weight 1 centred at 1 -/
noncomputable def XRun.settingsAt (v : Fin 1 → ℝ) : ModelSettings XR :=
  defineModelSettings (some [.fin (v 0)]) none (some [.fin 1]) none (some [.fin 1])

/-- A parameter in `[-10, 10]` with sum of squares `θ²` and five observations, sampled together with the
error variance, with two stages of delayed rejection: the hypotheses of C84 are met for every start
in the limits with positive variance. -/
theorem XRun.jointProblem (k : ℤ) (hk : 1 < k) :
    JointProblem (m := 1) XRun.user (coinRng (nS XRun.flags)) exactLapack
    (XRun.specs true) XRun.specsAt (defineSimulationOptions { nsimu := k, method := .dr, updatesigma := true })
    (XRun.extra 1 1) XRun.settingsAt XRun.data (fun θ _ => θ ⟨0, by decide⟩ * θ ⟨0, by decide⟩) (fun _ => 0)
    (fun _ => 5) (fun _ => 1) (fun _ => 1)
    {p | InLimits XRun.flags (XRun.specs true) (finVec p.1) ∧ ∀ j, 0 < p.2 j} where
  starts := (XRun.fixedProblem k hk).starts
  within p hp := hp
  exact p _ := {
    lapack := exactLapack_ok
    draws := fun _ => ⟨_, rfl⟩
    adjust := ⟨1, rfl⟩
    burnin := ⟨10, rfl, by norm_num⟩
    drscale := ⟨[5], rfl, by simp⟩
    noRam := rfl
    weight := .inl rfl
    scale := ⟨_, .inl ⟨rfl, rfl⟩⟩
    RDR := nofun }
  valid p hp := {
    nsimu := hk
    sampled := by decide
    initial := fun _ => ⟨_, rfl⟩
    limits := fun i hi => ((XRun.fixedProblem k hk).valid p.1 hp.1).limits i hi
    localFit := .inl rfl
    sos := fun v => by simp [XRun.user]
    data := show XRun.data.n ≠ [] by decide
    settings := ⟨fun v hv => by cases hv; exact .inl rfl, fun v hv => by cases hv; exact .inl rfl, nofun,
      .inr (.inl rfl), .inl (show XRun.data.n.length ≤ 1 by decide)⟩
    settingsFresh := rfl
    observations := rfl
    covariance := .inl ⟨fun _ => 1, rfl, fun _ => one_pos⟩
    drscale := by change [XR.fin 5] ≠ []; simp
    factors := nofun
    delayed := fun _ => ⟨.inl rfl, rfl, fun h => absurd h (show ¬ (0 : ℤ) < 0 by decide)⟩
    noRestart := rfl }
  noAdaptation := show (0 : ℤ) ≤ 0 by decide
  covariance := rfl
  noFactors := rfl
  sosDim := one_pos
  sos := (XRun.fixedProblem k hk).sos
  prior _ _ _ _ _ _ := rfl
  settings p _ := ⟨.inl rfl, .inr ⟨_, rfl, .inl ⟨p.2 0, rfl, fun j => by rw [Subsingleton.elim j 0]⟩⟩,
    .inr (.inr ⟨_, rfl, .inl ⟨1, rfl, fun _ => rfl⟩⟩), .inl (.inl ⟨1, rfl, fun _ => rfl⟩),
    .inl ⟨5, by decide, fun _ => by norm_num⟩⟩
  shapes _ := by norm_num
  rates θ _ _ := by have := mul_self_nonneg (θ ⟨0, by decide⟩); linarith
  measurable := ⟨by fun_prop, measurable_const⟩

/-- C84 for that problem: from value 3 and variance 2 almost every run returns 1000 rows of both chains, row
999 has the joint posterior as its law when the start has, and the density is not trivial. -/
example : ∃ row : ℕ → ((Fin (nS XRun.flags) → ℝ) × (Fin 1 → ℝ)) × CoinState (nS XRun.flags) →
      (Fin (nS XRun.flags) → ℝ) × (Fin 1 → ℝ),
    (∀ᵐ s ∂coinLaw (nS XRun.flags), ∃ K, ∀ fuel, K ≤ fuel →
      ∃ out, runSimulation XRun.user (coinRng (nS XRun.flags)) exactLapack fuel
        (newObj (m := 1) (XRun.specsAt fun _ => 3)
          (defineSimulationOptions { nsimu := 1000, method := .dr, updatesigma := true })
          (XRun.extra 1 1) (XRun.settingsAt fun _ => 2) XRun.data) s false = .ok out ∧
        ∃ c, out.results.s2chain = some c ∧
          out.results.chain[999]? = some (finVec (row 999 ((fun _ => 3, fun _ => 2), s)).1) ∧
          c[999]? = some (finVec (row 999 ((fun _ => 3, fun _ => 2), s)).2)) ∧
    Measure.map (row 999) ((jointPosterior (m := 1) XRun.flags (XRun.specs true)
      (fun θ _ => θ ⟨0, by decide⟩ * θ ⟨0, by decide⟩) (fun _ => 0) (fun _ => 5) (fun _ => 1) (fun _ => 1)).prod
        (coinLaw _)) =
      jointPosterior (m := 1) XRun.flags (XRun.specs true)
        (fun θ _ => θ ⟨0, by decide⟩ * θ ⟨0, by decide⟩) (fun _ => 0) (fun _ => 5) (fun _ => 1) (fun _ => 1) ∧
    jointDensity (m := 1) XRun.flags (XRun.specs true)
      (fun θ _ => θ ⟨0, by decide⟩ * θ ⟨0, by decide⟩) (fun _ => 0) (fun _ => 5) (fun _ => 1) (fun _ => 1)
      (fun _ => 3, fun _ => 1) = Real.exp (-5) := by
  have D1 : IdealRng (coinRng (nS XRun.flags)) 1 (coinLaw (nS XRun.flags)) := by
    rw [XRun.nS_flags]; exact coinIdeal 1
  obtain ⟨row, h1, -, -, h3, -⟩ := C84_joint_posterior (XRun.jointProblem 1000 (by decide)) (coinIdeal _) D1
  have hin : InLimits XRun.flags (XRun.specs true) (finVec fun _ => 3) := by
    intro i k _
    simp [XRun.specs, finVec]
    norm_num
  refine ⟨row, ?_, h3 999, ?_⟩
  · filter_upwards [h1 (fun _ => 3, fun _ => 2) ⟨hin, fun _ => by norm_num⟩] with s hs
    obtain ⟨K, hK⟩ := hs
    refine ⟨K, fun fuel hf => ?_⟩
    obtain ⟨out, ho, c, hc, hr⟩ := hK fuel hf
    exact ⟨out, ho, c, hc, hr 999 (show (999 : ℤ) < 1000 by decide)⟩
  · unfold jointDensity
    rw [Set.indicator_of_mem (by exact ⟨hin, fun _ => one_pos⟩)]
    simp [← Real.exp_add]
    norm_num

end Verif
