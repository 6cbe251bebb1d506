import Verif.Lemmas.MoveHarris
import Verif.Lemmas.JointLower

/-! # Iterations that also draw variances, on unbounded sets -/

namespace Verif
open MeasureTheory Finset Function ProbabilityTheory
open scoped ENNReal Matrix
variable {n m : ℕ} {σ : Type} [MeasurableSpace σ] {μ : Measure σ} [IsProbabilityMeasure μ] {G : Rng σ XR}

variable (D : IdealRng G n μ) {A : ℕ → Matrix (Fin n) (Fin n) ℝ} {W : ℕ → Fin n → Fin n → ℝ}
  {lp : (Fin m → ℝ) → (Fin n → ℝ) → Option ℝ} {b : (Fin n → ℝ) → Fin m → ℝ} {draw : σ → (Fin m → ℝ) × σ}
  {a : Fin m → ℝ} {S : Set (Fin n → ℝ)}

/-- density of the variances given the values -/
noncomputable def varDensity (a : Fin m → ℝ) (b : (Fin n → ℝ) → Fin m → ℝ) (y : Fin n → ℝ) (v : Fin m → ℝ) : ℝ≥0∞ :=
  ∏ j, invGammaPDF (a j) (b y j) (v j)

/-- mean over the variances given the values -/
noncomputable def varMean (a : Fin m → ℝ) (b : (Fin n → ℝ) → Fin m → ℝ) (g : (Fin n → ℝ) × (Fin m → ℝ) → ℝ≥0∞)
    (y : Fin n → ℝ) : ℝ≥0∞ :=
  ∫⁻ v, varDensity a b y v * g (y, v)

theorem measurable_varDensity (hb : Measurable b) :
    Measurable fun z : (Fin n → ℝ) × (Fin m → ℝ) => varDensity a b z.1 z.2 :=
  Finset.measurable_prod _ fun j _ => (measurable_invGammaPDF (a j)).comp
    (((measurable_pi_apply j).comp (hb.comp measurable_fst)).prodMk ((measurable_pi_apply j).comp measurable_snd))

theorem measurable_varDensity_right (y : Fin n → ℝ) : Measurable (varDensity a b y) :=
  Finset.measurable_prod _ fun j _ => (measurable_invGammaPDF (a j)).comp
    (measurable_const.prodMk (measurable_pi_apply j))

theorem measurable_varMean (hb : Measurable b) {g : (Fin n → ℝ) × (Fin m → ℝ) → ℝ≥0∞} (hg : Measurable g) :
    Measurable (varMean a b g) :=
  ((measurable_varDensity hb).mul hg).lintegral_prod_right'

theorem lintegral_varDensity (ha : ∀ j, 0 < a j) {y : Fin n → ℝ} (hy : ∀ j, 0 < b y j) :
    ∫⁻ v, varDensity a b y v = 1 := by
  have : ∀ j, IsProbabilityMeasure (gammaMeasure (a j) 1) := fun j =>
    isProbabilityMeasure_gammaMeasure (ha j) one_pos
  have h := lintegral_invGammas ha hy (h := fun _ => 1) measurable_const
  simpa [varDensity] using h.symm

/-- one iteration -/
theorem jointStep_expect
    (hd : Measurable fun p : (Fin m → ℝ) × (Fin n → ℝ) => (pointAt (lp p.1) p.2).density) {K : ℕ}
    (hAW : ∀ k < K, A k * Matrix.of (W k) = 1) (hb : Measurable b) (ha : ∀ j, 0 < a j)
    (hdraw : MeasurePreserving draw μ ((Measure.pi fun j => gammaMeasure (a j) 1).prod μ))
    (hS : ∀ v x, lp v x ≠ none ↔ x ∈ S) (hbS : ∀ x ∈ S, ∀ j, 0 < b x j)
    {g : (Fin n → ℝ) × (Fin m → ℝ) → ℝ≥0∞} (hg : Measurable g) (z : (Fin n → ℝ) × (Fin m → ℝ)) (hz : z.1 ∈ S) :
    expect μ (varianceStep b draw ∘ moveStep D A W lp K) 1 g z =
      ∫⁻ s, varMean a b g (moveFrom D A W (lp z.2) K 0 (fun _ => z.1) s).1 ∂μ := by
  have hfV : Fresh μ (varianceStep b draw) := fresh_varianceStep hb ha hdraw
  have hfM : Fresh μ (moveStep D A W lp K) := fresh_moveStep D hd hAW
  rw [expect_one]
  simp only [comp_apply]
  rw [hfM.lintegral_comp hfV hg z]
  refine lintegral_congr fun s => ?_
  have hin : (moveFrom D A W (lp z.2) K 0 (fun _ => z.1) s).1 ∈ S :=
    (hS z.2 _).1 (moveFrom_mem D K 0 (fun _ => z.1) s ((hS z.2 _).2 hz))
  exact varianceStep_expect hb ha hdraw hg (moveStep D A W lp K (z, s)).1 (hbS _ hin)

/-- Iterations with variances and a proper joint posterior have the properties that convergence rests on. -/
theorem jointStep_harris
    (hd : Measurable fun p : (Fin m → ℝ) × (Fin n → ℝ) => (pointAt (lp p.1) p.2).density) {K : ℕ} (hK : 0 < K)
    (hAW : ∀ k < K, A k * Matrix.of (W k) = 1) (hb : Measurable b) (ha : ∀ j, 0 < a j)
    (hdraw : MeasurePreserving draw μ ((Measure.pi fun j => gammaMeasure (a j) 1).prod μ))
    (hS : ∀ v x, lp v x ≠ none ↔ x ∈ S) (hbS : ∀ x ∈ S, ∀ j, 0 < b x j)
    {F : (Fin n → ℝ) → ℝ≥0∞} (hF : Measurable F) (hFS : ∀ x, F x ≠ 0 ↔ x ∈ S)
    {π : Measure ((Fin n → ℝ) × (Fin m → ℝ))} (hprob : IsProbabilityMeasure π) {Z : ℝ≥0∞} (hZ0 : Z ≠ 0) (hZt : Z ≠ ⊤)
    (hπ : ∀ g : (Fin n → ℝ) × (Fin m → ℝ) → ℝ≥0∞, Measurable g → ∫⁻ z, g z ∂π = Z⁻¹ * ∫⁻ y, F y * varMean a b g y)
    (hkept : MeasurePreserving (varianceStep b draw ∘ moveStep D A W lp K) (π.prod μ) (π.prod μ))
    {C1 : ℕ → Set (Fin n → ℝ)} {C2 : ℕ → Set (Fin m → ℝ)} (hC1 : ∀ k, MeasurableSet (C1 k))
    (hC2 : ∀ k, MeasurableSet (C2 k)) (hm1 : Monotone C1) (hm2 : Monotone C2) (hCS : ∀ k, C1 k ⊆ S)
    (he1 : ∀ x ∈ S, ∃ k, x ∈ C1 k) (he2 : ∀ v : Fin m → ℝ, (∀ j, 0 < v j) → ∃ k, v ∈ C2 k)
    (hbd : ∀ k, ∃ R : ℝ, 1 ≤ R ∧ ∀ x ∈ C1 k, (∀ i, |x i| ≤ R) ∧ F x ≤ ENNReal.ofReal R ∧
      ∀ v ∈ C2 k, R⁻¹ ≤ (pointAt (lp v) x).density ∧ (pointAt (lp v) x).density ≤ R) :
    Harris μ (varianceStep b draw ∘ moveStep D A W lp K) π ∧
    ∀ z : (Fin n → ℝ) × (Fin m → ℝ), z.1 ∈ S → Spreads μ (varianceStep b draw ∘ moveStep D A W lp K) π z := by
  have hfT : Fresh μ (varianceStep b draw ∘ moveStep D A W lp K) :=
    (fresh_varianceStep hb ha hdraw).comp (fresh_moveStep D hd hAW)
  set T := varianceStep b draw ∘ moveStep D A W lp K with hT
  have hZi : Z⁻¹ ≠ 0 := ENNReal.inv_ne_zero.2 hZt
  have hSm : MeasurableSet S := by
    have : S = {x | F x ≠ 0} := by ext x; exact (hFS x).symm
    rw [this]
    exact (hF (measurableSet_singleton 0)).compl
  -- null functions
  have hnull : ∀ g : (Fin n → ℝ) × (Fin m → ℝ) → ℝ≥0∞, Measurable g → ∫⁻ z, g z ∂π = 0 →
      ∀ᵐ y, y ∈ S → varMean a b g y = 0 := by
    intro g hg h0
    have hmm : Measurable fun y => F y * varMean a b g y := hF.mul (measurable_varMean hb hg)
    rw [hπ g hg, mul_eq_zero, or_iff_right hZi, lintegral_eq_zero_iff hmm] at h0
    filter_upwards [h0] with y hy hyS
    exact (mul_eq_zero.1 hy).resolve_left ((hFS y).2 hyS)
  have hvol : (volume : Measure (Fin n → ℝ)) S ≠ 0 := by
    intro h0
    have h1 : ∫⁻ z, (1 : ℝ≥0∞) ∂π = 0 := by
      rw [hπ _ measurable_const, mul_eq_zero]
      right
      have hmm : Measurable fun y => F y * varMean a b (fun _ => 1) y :=
        hF.mul (measurable_varMean hb measurable_const)
      rw [lintegral_eq_zero_iff hmm]
      have h2 : ∀ᵐ y, y ∉ S := by
        change volume {y | ¬ y ∉ S} = 0
        simpa using h0
      filter_upwards [h2] with y hy
      have : F y = 0 := by
        by_contra hh
        exact hy ((hFS y).1 hh)
      simp [this]
    rw [lintegral_one, measure_univ] at h1
    exact one_ne_zero h1
  have hin : ∀ᵐ z ∂π, z.1 ∈ S ∧ ∀ j, 0 < z.2 j := by
    have hset : MeasurableSet {z : (Fin n → ℝ) × (Fin m → ℝ) | z.1 ∈ S ∧ ∀ j, 0 < z.2 j} := by
      have : {z : (Fin n → ℝ) × (Fin m → ℝ) | z.1 ∈ S ∧ ∀ j, 0 < z.2 j} =
          Prod.fst ⁻¹' S ∩ ⋂ j, {p : (Fin n → ℝ) × (Fin m → ℝ) | 0 < p.2 j} := by
        ext p; simp
      rw [this]
      exact (measurable_fst hSm).inter (MeasurableSet.iInter fun j =>
        measurableSet_lt measurable_const ((measurable_pi_apply j).comp measurable_snd))
    change π {z : (Fin n → ℝ) × (Fin m → ℝ) | z.1 ∈ S ∧ ∀ j, 0 < z.2 j}ᶜ = 0
    rw [← lintegral_indicator_one hset.compl, hπ _ (measurable_one.indicator hset.compl), mul_eq_zero]
    right
    refine (lintegral_congr fun y => ?_).trans lintegral_zero
    by_cases hy : y ∈ S
    · rw [mul_eq_zero]
      right
      unfold varMean
      refine (lintegral_congr fun v => ?_).trans lintegral_zero
      by_cases hv : ∀ j, 0 < v j
      · rw [Set.indicator_of_notMem, mul_zero]
        simp [hy, hv]
      · push Not at hv
        obtain ⟨j, hj⟩ := hv
        have : varDensity a b y v = 0 := by
          unfold varDensity
          exact Finset.prod_eq_zero (Finset.mem_univ j) (by unfold invGammaPDF; rw [if_neg (not_lt.2 hj)])
        rw [this, zero_mul]
    · have : F y = 0 := by
        by_contra hh
        exact hy ((hFS y).1 hh)
      rw [this, zero_mul]
  refine ⟨⟨hfT, hprob, hkept, fun η hη => ?_⟩, fun z hz => ?_⟩
  · obtain ⟨k, hk⟩ := exists_small_compl (π := π) (C := fun k => C1 k ×ˢ C2 k)
      (fun k => (hC1 k).prod (hC2 k)) (fun i j hij => Set.prod_mono (hm1 hij) (hm2 hij))
      (hin.mono fun z hz => by
        obtain ⟨k1, h1⟩ := he1 z.1 hz.1
        obtain ⟨k2, h2⟩ := he2 z.2 hz.2
        exact ⟨max k1 k2, hm1 (le_max_left _ _) h1, hm2 (le_max_right _ _) h2⟩) hη
    obtain ⟨R, hR, hbdR⟩ := hbd k
    have hR0 : 0 < R := by linarith
    set c := gaussConst (A 0) * ENNReal.ofReal (Real.exp (-(1 / 2) * ∑ j, (∑ i, (2 * R) * |W 0 i j|) ^ 2)) *
        ENNReal.ofReal (R⁻¹ * R⁻¹) with hc
    have hc0 : c ≠ 0 := by
      refine mul_ne_zero (mul_ne_zero (gaussConst_pos (hAW 0 hK)).ne' ?_) ?_
      · simp [Real.exp_pos]
      · rw [Ne, ENNReal.ofReal_eq_zero, not_le]; positivity
    have hct : c ≠ ⊤ := ENNReal.mul_ne_top (ENNReal.mul_ne_top (gaussConst_ne_top _) ENNReal.ofReal_ne_top)
      ENNReal.ofReal_ne_top
    set d := c * (ENNReal.ofReal R⁻¹ * Z) with hdd
    have hRi0 : ENNReal.ofReal R⁻¹ ≠ 0 := by rw [Ne, ENNReal.ofReal_eq_zero, not_le]; positivity
    have hd0 : d ≠ 0 := mul_ne_zero hc0 (mul_ne_zero hRi0 hZ0)
    have hdt : d ≠ ⊤ := ENNReal.mul_ne_top hct (ENNReal.mul_ne_top ENNReal.ofReal_ne_top hZt)
    refine ⟨C1 k ×ˢ C2 k, d.toReal, (hC1 k).prod (hC2 k), ENNReal.toReal_pos hd0 hdt, hk, ?_⟩
    rw [ENNReal.ofReal_toReal hdt]
    intro z hz B hB
    have hBC : MeasurableSet (B ∩ C1 k ×ˢ C2 k) := hB.inter ((hC1 k).prod (hC2 k))
    have hgm : Measurable ((B ∩ C1 k ×ˢ C2 k).indicator (1 : (Fin n → ℝ) × (Fin m → ℝ) → ℝ≥0∞)) :=
      measurable_one.indicator hBC
    have hvm := measurable_varMean (a := a) hb hgm
    have hzS : z.1 ∈ S := hCS k hz.1
    have h1 := moveFrom_local_lower D (A := A) (W := W) (lp := lp z.2) (section_density hd z.2) hK hAW hR
      ((hS z.2 z.1).2 hzS) (hbdR z.1 hz.1).1 ((hbdR z.1 hz.1).2.2 z.2 hz.2).2 (hC1 k)
      (fun y hy => ⟨(hbdR y hy).1, ((hbdR y hy).2.2 z.2 hz.2).1⟩) hvm
    rw [← hc, ← jointStep_expect D hd hAW hb ha hdraw hS hbS hgm z hzS, ← hT, expect_one] at h1
    have e1 : ∫⁻ s, (B ∩ C1 k ×ˢ C2 k).indicator (1 : (Fin n → ℝ) × (Fin m → ℝ) → ℝ≥0∞) (T (z, s)).1 ∂μ ≤
        μ {s | (T (z, s)).1 ∈ B} := by
      have hm : MeasurableSet {s | (T (z, s)).1 ∈ B} := hfT.measurable_row 1 z hB
      rw [← lintegral_indicator_one hm]
      refine lintegral_mono fun s => ?_
      by_cases hs : (T (z, s)).1 ∈ B ∩ C1 k ×ˢ C2 k
      · have hs' : s ∈ {s | (T (z, s)).1 ∈ B} := hs.1
        rw [Set.indicator_of_mem hs, Set.indicator_of_mem hs']
        exact le_rfl
      · rw [Set.indicator_of_notMem hs]
        exact zero_le
    refine le_trans ?_ (h1.trans e1)
    have h2 : π (B ∩ C1 k ×ˢ C2 k) ≤ Z⁻¹ * (ENNReal.ofReal R *
        ∫⁻ y in C1 k, varMean a b ((B ∩ C1 k ×ˢ C2 k).indicator 1) y) := by
      rw [← lintegral_indicator_one hBC, hπ _ hgm]
      gcongr
      rw [← lintegral_const_mul _ hvm, ← lintegral_indicator (hC1 k)]
      refine lintegral_mono fun y => ?_
      by_cases hy : y ∈ C1 k
      · rw [Set.indicator_of_mem hy]
        gcongr
        exact (hbdR y hy).2.1
      · have : varMean a b ((B ∩ C1 k ×ˢ C2 k).indicator 1) y = 0 := by
          unfold varMean
          refine (lintegral_congr fun v => ?_).trans lintegral_zero
          rw [Set.indicator_of_notMem (fun h => hy h.2.1), mul_zero]
        rw [this, mul_zero]
        exact zero_le
    calc d * π (B ∩ C1 k ×ˢ C2 k) ≤ d * (Z⁻¹ * (ENNReal.ofReal R *
          ∫⁻ y in C1 k, varMean a b ((B ∩ C1 k ×ˢ C2 k).indicator 1) y)) := by gcongr
      _ = c * ((ENNReal.ofReal R⁻¹ * ENNReal.ofReal R) * (Z * Z⁻¹) *
          ∫⁻ y in C1 k, varMean a b ((B ∩ C1 k ×ˢ C2 k).indicator 1) y) := by
          rw [hdd]; ring
      _ = c * ∫⁻ y in C1 k, varMean a b ((B ∩ C1 k ×ˢ C2 k).indicator 1) y := by
          rw [ENNReal.mul_inv_cancel hZ0 hZt, ← ENNReal.ofReal_mul (inv_pos.2 hR0).le, inv_mul_cancel₀ hR0.ne',
            ENNReal.ofReal_one, one_mul, one_mul]
  · -- the law of the variances at the start
    set ρ := (volume : Measure (Fin m → ℝ)).withDensity (varDensity a b z.1) with hρ
    have hdm := measurable_varDensity_right (a := a) (b := b) z.1
    have hρp : IsProbabilityMeasure ρ := ⟨by
      rw [hρ, withDensity_apply _ MeasurableSet.univ, Measure.restrict_univ, lintegral_varDensity ha (hbS _ hz)]⟩
    have hmean : ∀ g : (Fin n → ℝ) × (Fin m → ℝ) → ℝ≥0∞, Measurable g → varMean a b g z.1 = ∫⁻ v, g (z.1, v) ∂ρ := by
      intro g hg
      have hgz : Measurable fun v => g (z.1, v) := hg.comp (measurable_const.prodMk measurable_id)
      rw [hρ, lintegral_withDensity_eq_lintegral_mul _ hdm hgz]
      rfl
    set r := ∫⁻ v, rejectAt A W (lp v) z.1 ∂ρ with hr
    have hrej : ∀ v, rejectAt A W (lp v) z.1 < 1 := fun v => by
      refine rejectAt_lt_one (section_density hd v) (hAW 0 hK) ?_ ((hS v _).2 hz)
      rw [show {y | lp v y ≠ none} = S from Set.ext fun y => hS v y]
      exact hvol
    have hr1 : r < 1 := by
      have h1 : ∫⁻ _, (1 : ℝ≥0∞) ∂ρ = 1 := by rw [lintegral_one, measure_univ]
      calc r < ∫⁻ _, 1 ∂ρ := lintegral_strict_mono (IsProbabilityMeasure.ne_zero ρ) measurable_const.aemeasurable
              (ne_top_of_le_ne_top ENNReal.one_ne_top
                ((lintegral_mono fun v => (hrej v).le).trans h1.le)) (ae_of_all _ hrej)
        _ = 1 := h1
    have hstep : ∀ g : (Fin n → ℝ) × (Fin m → ℝ) → ℝ≥0∞, Measurable g → ∫⁻ z, g z ∂π = 0 → ∀ v,
        expect μ T 1 g (z.1, v) ≤ rejectAt A W (lp v) z.1 * varMean a b g z.1 := by
      intro g hg h0 v
      rw [jointStep_expect D hd hAW hb ha hdraw hS hbS hg (z.1, v) hz]
      refine moveFrom_null D (section_density hd v) hK hAW (measurable_varMean hb hg) ?_ z.1
      filter_upwards [hnull g hg h0] with y hy hlp
      exact hy ((hS v y).1 hlp)
    intro ε hε
    obtain ⟨j, hj⟩ : ∃ j : ℕ, r ^ j < ENNReal.ofReal ε := by
      have := ENNReal.tendsto_pow_atTop_nhds_zero_of_lt_one hr1
      exact (this.eventually_lt_const (by simpa using hε)).exists
    refine ⟨j + 1, fun B hB hB0 => ?_⟩
    have hm : Measurable (B.indicator (1 : (Fin n → ℝ) × (Fin m → ℝ) → ℝ≥0∞)) := measurable_one.indicator hB
    have hz0 : ∫⁻ y, B.indicator (1 : (Fin n → ℝ) × (Fin m → ℝ) → ℝ≥0∞) y ∂π = 0 := by
      rw [lintegral_indicator_one hB, hB0]
    have key : ∀ k, varMean a b (expect μ T k (B.indicator 1)) z.1 ≤ r ^ k := by
      intro k
      induction k with
      | zero =>
        rw [hmean _ (measurable_expect hfT 0 hm), pow_zero]
        calc ∫⁻ v, expect μ T 0 (B.indicator 1) (z.1, v) ∂ρ ≤ ∫⁻ _, 1 ∂ρ := by
              refine lintegral_mono fun v => ?_
              simp only [expect, iterate_zero, id_eq, lintegral_const, measure_univ, mul_one]
              exact Set.indicator_le_self' (fun _ _ => zero_le) _
          _ = 1 := by rw [lintegral_one, measure_univ]
      | succ k ih =>
        rw [Nat.add_comm, hmean _ (measurable_expect hfT _ hm), Nat.add_comm 1 k, pow_succ']
        have hne : varMean a b (expect μ T k (B.indicator 1)) z.1 ≠ ⊤ :=
          ne_top_of_le_ne_top (ENNReal.pow_ne_top (hr1.trans ENNReal.one_lt_top).ne) ih
        calc ∫⁻ v, expect μ T (k + 1) (B.indicator 1) (z.1, v) ∂ρ
            ≤ ∫⁻ v, rejectAt A W (lp v) z.1 * varMean a b (expect μ T k (B.indicator 1)) z.1 ∂ρ := by
              refine lintegral_mono fun v => ?_
              rw [Nat.add_comm, expect_add hfT 1 k hm]
              exact hstep _ (measurable_expect hfT k hm) (by rw [expect_stationary hfT hkept k hm, hz0]) v
          _ = r * varMean a b (expect μ T k (B.indicator 1)) z.1 := lintegral_mul_const' _ _ hne
          _ ≤ r * r ^ k := by gcongr
    have hlast : expect μ T (j + 1) (B.indicator 1) z ≤ r ^ j := by
      rw [Nat.add_comm, expect_add hfT 1 j hm]
      refine (hstep _ (measurable_expect hfT j hm) (by rw [expect_stationary hfT hkept j hm, hz0]) z.2).trans ?_
      calc _ ≤ 1 * r ^ j := mul_le_mul' (hrej z.2).le (key j)
        _ = r ^ j := one_mul _
    have e1 : expect μ T (j + 1) (B.indicator 1) z = μ {s | (T^[j + 1] (z, s)).1 ∈ B} := by
      unfold expect
      have : (fun s => B.indicator (1 : (Fin n → ℝ) × (Fin m → ℝ) → ℝ≥0∞) (T^[j + 1] (z, s)).1) =
          ({s | (T^[j + 1] (z, s)).1 ∈ B} : Set σ).indicator 1 := rfl
      have hm : MeasurableSet {s | (T^[j + 1] (z, s)).1 ∈ B} := hfT.measurable_row (j + 1) z hB
      rw [this, lintegral_indicator_one hm]
    have h2 : μ {s | (T^[j + 1] (z, s)).1 ∈ B} ≤ ENNReal.ofReal ε := by
      rw [← e1]; exact hlast.trans hj.le
    have := ENNReal.toReal_mono ENNReal.ofReal_ne_top h2
    rwa [ENNReal.toReal_ofReal hε.le] at this

end Verif
