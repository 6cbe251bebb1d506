import Verif.Lemmas.Forget
import Verif.Lemmas.MoveLower

/-! # Iterations on unbounded sets: lower bounds on bounded parts, and leaving null sets -/

namespace Verif
open MeasureTheory Finset Function
open scoped ENNReal Matrix

section spread
variable {X σ : Type} [MeasurableSpace X] [MeasurableSpace σ] {μ : Measure σ} [IsProbabilityMeasure μ]
  {T : X × σ → X × σ} {π : Measure X} [SFinite π]

theorem expect_one (T : X × σ → X × σ) (f : X → ℝ≥0∞) (x : X) :
    expect μ T 1 f x = ∫⁻ s, f (T (x, s)).1 ∂μ := rfl

/-- If a step leaves every null set with some probability, the law becomes absolutely continuous. -/
theorem spreads_of_bound (hT : Fresh μ T) (hπ : MeasurePreserving T (π.prod μ) (π.prod μ)) {x : X} {r : ℝ≥0∞}
    (hr : r < 1) (h : ∀ g : X → ℝ≥0∞, Measurable g → ∫⁻ y, g y ∂π = 0 → expect μ T 1 g x ≤ r * g x) :
    Spreads μ T π x := by
  intro ε hε
  obtain ⟨j, hj⟩ : ∃ j : ℕ, r ^ j < ENNReal.ofReal ε := by
    have := ENNReal.tendsto_pow_atTop_nhds_zero_of_lt_one hr
    exact (this.eventually_lt_const (by simpa using hε)).exists
  refine ⟨j, fun B hB hB0 => ?_⟩
  have hm : Measurable (B.indicator (1 : X → ℝ≥0∞)) := measurable_one.indicator hB
  have hz : ∫⁻ y, B.indicator (1 : X → ℝ≥0∞) y ∂π = 0 := by rw [lintegral_indicator_one hB, hB0]
  have key : ∀ k, expect μ T k (B.indicator 1) x ≤ r ^ k := by
    intro k
    induction k with
    | zero =>
      simp only [expect, iterate_zero, id_eq, lintegral_const, measure_univ, mul_one, pow_zero]
      exact Set.indicator_le_self' (fun _ _ => zero_le) x
    | succ k ih =>
      rw [Nat.add_comm, expect_add hT 1 k hm, Nat.add_comm, pow_succ']
      refine (h _ (measurable_expect hT k hm) (by rw [expect_stationary hT hπ k hm, hz])).trans ?_
      gcongr
  have e1 : expect μ T j (B.indicator 1) x = μ {s | (T^[j] (x, s)).1 ∈ B} := by
    unfold expect
    have : (fun s => B.indicator (1 : X → ℝ≥0∞) (T^[j] (x, s)).1) =
        ({s | (T^[j] (x, s)).1 ∈ B} : Set σ).indicator 1 := rfl
    have hm : MeasurableSet {s | (T^[j] (x, s)).1 ∈ B} := hT.measurable_row j x hB
    rw [this, lintegral_indicator_one hm]
  have h2 : μ {s | (T^[j] (x, s)).1 ∈ B} ≤ ENNReal.ofReal ε := by
    rw [← e1]; exact (key j).trans hj.le
  have := ENNReal.toReal_mono ENNReal.ofReal_ne_top h2
  rwa [ENNReal.toReal_ofReal hε.le] at this

end spread

variable {n : ℕ} {σ : Type} [MeasurableSpace σ] {μ : Measure σ} {G : Rng σ XR}

section lower
variable (D : IdealRng G n μ) {A : ℕ → Matrix (Fin n) (Fin n) ℝ}
  {W : ℕ → Fin n → Fin n → ℝ} {lp : (Fin n → ℝ) → Option ℝ}

attribute [local irreducible] gauss propDensity

theorem alphaAt_zero {x : Fin n → ℝ} (y : Fin n → ℝ) :
    alphaAt W lp 0 (update (fun _ => x) 1 y) = min 1 ((pointAt lp y).density / (pointAt lp x).density) := by
  have hg : 0 < gauss (W 0) x y := by unfold gauss; exact Real.exp_pos _
  unfold alphaAt
  rw [drAlpha]
  simp [pointAt, update_of_ne]
  rw [gauss_symm (W 0) y x, mul_div_mul_right _ _ hg.ne']

/-- Functions that vanish almost everywhere the posterior is positive do not grow. -/
theorem expectAfter_null {K : ℕ} (hAW : ∀ k < K, A k * Matrix.of (W k) = 1) {g : (Fin n → ℝ) → ℝ≥0∞}
    (hg : ∀ᵐ y, lp y ≠ none → g y = 0) (r : ℕ) : ∀ l, l + r ≤ K → ∀ P, expectAfter A W lp g r l P ≤ g (P 0) := by
  induction r with
  | zero => intro l _ P; exact le_rfl
  | succ r ih =>
    intro l hl P
    rw [expectAfter]
    calc _ ≤ ∫⁻ y, propDensity (A l) (W l) (P 0) y * g (P 0) := by
          refine lintegral_mono_ae (hg.mono fun y hy => ?_)
          gcongr
          have h1 : ENNReal.ofReal (alphaAt W lp l (update P (l + 1) y)) * g y = 0 := by
            by_cases h : lp y = none
            · rw [alphaAt_outside (by rw [update_self]; exact h)]; simp
            · rw [hy h, mul_zero]
          rw [h1, zero_add]
          have h2 := ih (l + 1) (by omega) (update P (l + 1) y)
          rw [update_of_ne (by omega)] at h2
          refine le_trans (mul_le_mul' ?_ h2) (one_mul _).le
          rw [← ENNReal.ofReal_one]
          exact ENNReal.ofReal_le_ofReal (by linarith [alphaAt_nonneg (W := W) (lp := lp) l (update P (l + 1) y)])
      _ = g (P 0) := by
          have hmp : Measurable fun y => propDensity (A l) (W l) (P 0) y :=
            measurable_propDensity (A l) (W l) measurable_const measurable_id
          rw [lintegral_mul_const _ hmp,
            lintegral_propDensity (hAW l (by omega)), one_mul]

/-- the probability that the first proposal from `x` is rejected -/
noncomputable def rejectAt (A : ℕ → Matrix (Fin n) (Fin n) ℝ) (W : ℕ → Fin n → Fin n → ℝ)
    (lp : (Fin n → ℝ) → Option ℝ) (x : Fin n → ℝ) : ℝ≥0∞ :=
  ∫⁻ y, propDensity (A 0) (W 0) x y * ENNReal.ofReal (1 - alphaAt W lp 0 (update (fun _ => x) 1 y))

theorem measurable_alphaAt_zero (hd : Measurable fun x => (pointAt lp x).density) (x : Fin n → ℝ) :
    Measurable fun y => alphaAt W lp 0 (update (fun _ => x) 1 y) := by
  simp only [alphaAt_zero]
  exact measurable_const.min (hd.div_const _)

theorem rejectAt_le_one (hAW : A 0 * Matrix.of (W 0) = 1) (x : Fin n → ℝ) : rejectAt A W lp x ≤ 1 := by
  unfold rejectAt
  rw [← lintegral_propDensity hAW x]
  refine lintegral_mono fun y => ?_
  refine mul_le_of_le_one_right' ?_
  rw [← ENNReal.ofReal_one]
  exact ENNReal.ofReal_le_ofReal (by linarith [alphaAt_nonneg (W := W) (lp := lp) 0 (update (fun _ => x) 1 y)])

theorem rejectAt_lt_one (hd : Measurable fun x => (pointAt lp x).density) (hAW : A 0 * Matrix.of (W 0) = 1)
    (hvol : (volume : Measure (Fin n → ℝ)) {y | lp y ≠ none} ≠ 0) {x : Fin n → ℝ} (hx : lp x ≠ none) :
    rejectAt A W lp x < 1 := by
  have hmα := measurable_alphaAt_zero (W := W) hd x
  have hmp : Measurable fun y => propDensity (A 0) (W 0) x y :=
    measurable_propDensity (A 0) (W 0) measurable_const measurable_id
  have hsum : rejectAt A W lp x +
      ∫⁻ y, propDensity (A 0) (W 0) x y * ENNReal.ofReal (alphaAt W lp 0 (update (fun _ => x) 1 y)) = 1 := by
    unfold rejectAt
    have hm : Measurable fun y => propDensity (A 0) (W 0) x y *
        ENNReal.ofReal (1 - alphaAt W lp 0 (update (fun _ => x) 1 y)) :=
      hmp.mul (measurable_const.sub hmα).ennreal_ofReal
    rw [← lintegral_add_left hm, ← lintegral_propDensity hAW x]
    refine lintegral_congr fun y => ?_
    rw [← mul_add, ← ENNReal.ofReal_add (sub_nonneg.2 (alphaAt_le_one _ _)) (alphaAt_nonneg _ _),
      sub_add_cancel, ENNReal.ofReal_one, mul_one]
  refine lt_of_le_of_ne (rejectAt_le_one hAW x) fun h1 => hvol ?_
  rw [h1] at hsum
  have h0 : ∫⁻ y, propDensity (A 0) (W 0) x y * ENNReal.ofReal (alphaAt W lp 0 (update (fun _ => x) 1 y)) = 0 := by
    have := ENNReal.add_right_inj (a := 1) (b := ∫⁻ y, propDensity (A 0) (W 0) x y *
      ENNReal.ofReal (alphaAt W lp 0 (update (fun _ => x) 1 y))) (c := 0) ENNReal.one_ne_top
    rw [add_zero] at this
    exact this.1 hsum
  have hm : Measurable fun y => propDensity (A 0) (W 0) x y *
      ENNReal.ofReal (alphaAt W lp 0 (update (fun _ => x) 1 y)) := hmp.mul hmα.ennreal_ofReal
  rw [lintegral_eq_zero_iff hm] at h0
  refine measure_mono_null (fun y hy => ?_) h0
  intro h2
  have h3 : propDensity (A 0) (W 0) x y * ENNReal.ofReal (alphaAt W lp 0 (update (fun _ => x) 1 y)) = 0 := h2
  rw [mul_eq_zero] at h3
  rcases h3 with h3 | h3
  · unfold propDensity at h3
    rw [mul_eq_zero] at h3
    rcases h3 with h3 | h3
    · exact (gaussConst_pos hAW).ne' h3
    · unfold gauss at h3
      rw [ENNReal.ofReal_eq_zero] at h3
      exact absurd h3 (not_le.2 (Real.exp_pos _))
  · rw [ENNReal.ofReal_eq_zero, alphaAt_zero] at h3
    have : 0 < min 1 ((pointAt lp y).density / (pointAt lp x).density) :=
      lt_min one_pos (div_pos (density_pos_iff.2 hy) (density_pos_iff.2 hx))
    linarith

variable [IsProbabilityMeasure μ]

theorem moveFrom_null (hd : Measurable fun x => (pointAt lp x).density) {K : ℕ} (hK : 0 < K)
    (hAW : ∀ k < K, A k * Matrix.of (W k) = 1) {g : (Fin n → ℝ) → ℝ≥0∞} (hg : Measurable g)
    (hg0 : ∀ᵐ y, lp y ≠ none → g y = 0) (x : Fin n → ℝ) :
    ∫⁻ s, g (moveFrom D A W lp K 0 (fun _ => x) s).1 ∂μ ≤ rejectAt A W lp x * g x := by
  have e := lintegral_moveFrom D (A := A) (W := W) hd hAW (g := fun p => g p.1) (hg.comp measurable_fst) K 0
    (by omega) (fun _ => x)
  simp only [lintegral_const, measure_univ, mul_one] at e
  rw [e]
  obtain ⟨K, rfl⟩ : ∃ k, K = k + 1 := ⟨K - 1, by omega⟩
  have hmα := measurable_alphaAt_zero (W := W) hd x
  have hmp : Measurable fun y => propDensity (A 0) (W 0) x y :=
    measurable_propDensity (A 0) (W 0) measurable_const measurable_id
  unfold rejectAt
  have hm : Measurable fun y => propDensity (A 0) (W 0) x y *
      ENNReal.ofReal (1 - alphaAt W lp 0 (update (fun _ => x) 1 y)) :=
    hmp.mul (measurable_const.sub hmα).ennreal_ofReal
  rw [expectAfter, ← lintegral_mul_const _ hm]
  refine lintegral_mono_ae (hg0.mono fun y hy => ?_)
  have h1 : ENNReal.ofReal (alphaAt W lp 0 (update (fun _ => x) (0 + 1) y)) * g y = 0 := by
    by_cases h : lp y = none
    · rw [alphaAt_outside (by rw [update_self]; exact h)]; simp
    · rw [hy h, mul_zero]
  have h2 := expectAfter_null hAW hg0 K (0 + 1) (by omega) (update (fun _ => x) (0 + 1) y)
  rw [update_of_ne (by omega)] at h2
  rw [h1, zero_add, mul_assoc]
  gcongr

/-- On bounded sets where the posterior is bounded, the law of an iteration is at least a multiple of the
volume where the posterior is bounded from below. -/
theorem moveFrom_local_lower (hd : Measurable fun x => (pointAt lp x).density) {K : ℕ} (hK : 0 < K)
    (hAW : ∀ k < K, A k * Matrix.of (W k) = 1) {R : ℝ} (hR : 1 ≤ R) {x : Fin n → ℝ} (hx : lp x ≠ none)
    (hxR : ∀ i, |x i| ≤ R) (hdx : (pointAt lp x).density ≤ R) {C : Set (Fin n → ℝ)} (hC : MeasurableSet C)
    (hCR : ∀ y ∈ C, (∀ i, |y i| ≤ R) ∧ R⁻¹ ≤ (pointAt lp y).density) {g : (Fin n → ℝ) → ℝ≥0∞} (hg : Measurable g) :
    gaussConst (A 0) * ENNReal.ofReal (Real.exp (-(1 / 2) * ∑ j, (∑ i, (2 * R) * |W 0 i j|) ^ 2)) *
        ENNReal.ofReal (R⁻¹ * R⁻¹) * ∫⁻ y in C, g y ≤
      ∫⁻ s, g (moveFrom D A W lp K 0 (fun _ => x) s).1 ∂μ := by
  refine le_trans ?_ (moveFrom_lower D hd hK hAW hg x)
  rw [← lintegral_const_mul _ hg, ← lintegral_indicator hC]
  refine lintegral_mono fun y => ?_
  by_cases hy : y ∈ C
  swap
  · rw [Set.indicator_of_notMem hy]; exact zero_le
  rw [Set.indicator_of_mem hy]
  obtain ⟨hy1, hy2⟩ := hCR y hy
  have hR0 : 0 < R := by linarith
  have h1 : gaussConst (A 0) * ENNReal.ofReal (Real.exp (-(1 / 2) * ∑ j, (∑ i, (2 * R) * |W 0 i j|) ^ 2)) ≤
      propDensity (A 0) (W 0) x y := by
    unfold propDensity
    gcongr
    refine gauss_ge (W 0) fun i => ?_
    have := abs_le.1 (hy1 i)
    have := abs_le.1 (hxR i)
    rw [abs_le]
    constructor <;> linarith
  have h2 : ENNReal.ofReal (R⁻¹ * R⁻¹) ≤ ENNReal.ofReal (alphaAt W lp 0 (update (fun _ => x) 1 y)) := by
    refine ENNReal.ofReal_le_ofReal ?_
    rw [alphaAt_zero]
    have hRi : R⁻¹ ≤ 1 := inv_le_one_of_one_le₀ hR
    have hRp : 0 < R⁻¹ := inv_pos.2 hR0
    refine le_min (by nlinarith) ?_
    rw [div_eq_mul_inv]
    exact mul_le_mul hy2 (inv_anti₀ (density_pos_iff.2 hx) hdx) hRp.le (hRp.le.trans hy2)
  calc _ = gaussConst (A 0) * ENNReal.ofReal (Real.exp (-(1 / 2) * ∑ j, (∑ i, (2 * R) * |W 0 i j|) ^ 2)) *
        (ENNReal.ofReal (R⁻¹ * R⁻¹) * g y) := by ring
    _ ≤ _ := by gcongr

/-- sets that grow to everything have almost full probability -/
theorem exists_small_compl {X : Type} [MeasurableSpace X] {π : Measure X} [IsProbabilityMeasure π] {C : ℕ → Set X}
    (hC : ∀ k, MeasurableSet (C k)) (hmono : Monotone C) (hall : ∀ᵐ x ∂π, ∃ k, x ∈ C k) {η : ℝ} (hη : 0 < η) :
    ∃ k, π.real (C k)ᶜ ≤ η := by
  have h := tendsto_measure_iUnion_atTop (μ := π) hmono
  have h1 : π (⋃ k, C k) = 1 := by
    rw [prob_compl_eq_zero_iff (MeasurableSet.iUnion hC) |>.symm]
    refine measure_mono_null (fun x hx => ?_) hall
    simpa using hx
  rw [h1] at h
  have h2 : Filter.Tendsto (fun k => π.real (C k)) Filter.atTop (nhds 1) := by
    have := (ENNReal.tendsto_toReal ENNReal.one_ne_top).comp h
    rwa [ENNReal.toReal_one] at this
  obtain ⟨k, hk⟩ := (h2.eventually_const_lt (show 1 - η < 1 by linarith)).exists
  refine ⟨k, ?_⟩
  rw [probReal_compl_eq_one_sub (hC k)]
  linarith

section fixed
variable {π : Measure (Fin n → ℝ)} {Z : ℝ≥0∞}

/-- where the posterior is bounded, from above and below -/
def Core (lp : (Fin n → ℝ) → Option ℝ) (R : ℝ) : Set (Fin n → ℝ) :=
  {y | (∀ i, |y i| ≤ R) ∧ R⁻¹ ≤ (pointAt lp y).density ∧ (pointAt lp y).density ≤ R}

theorem measurableSet_core (hd : Measurable fun x => (pointAt lp x).density) (R : ℝ) : MeasurableSet (Core lp R) := by
  have h1 : MeasurableSet {y : Fin n → ℝ | ∀ i, |y i| ≤ R} := by
    simp only [Set.ofPred_forall]
    exact MeasurableSet.iInter fun i => measurableSet_le (measurable_pi_apply i).abs measurable_const
  exact h1.inter ((measurableSet_le measurable_const hd).inter (measurableSet_le hd measurable_const))

theorem core_mono : Monotone fun k : ℕ => Core lp ((k : ℝ) + 1) := by
  intro a b hab y hy
  have : ((a : ℝ) + 1) ≤ b + 1 := by
    have : (a : ℝ) ≤ b := by exact_mod_cast hab
    linarith
  obtain ⟨h1, h2, h3⟩ := hy
  exact ⟨fun i => (h1 i).trans this, (inv_anti₀ (by positivity) this).trans h2, h3.trans this⟩

theorem core_exists {y : Fin n → ℝ} (hy : lp y ≠ none) : ∃ k : ℕ, y ∈ Core lp ((k : ℝ) + 1) := by
  have hp := density_pos_iff.2 hy
  obtain ⟨k, hk⟩ := exists_nat_gt (∑ i, |y i| + ((pointAt lp y).density + ((pointAt lp y).density)⁻¹))
  have hs : 0 ≤ ∑ i, |y i| := Finset.sum_nonneg fun i _ => abs_nonneg _
  have hi : 0 < ((pointAt lp y).density)⁻¹ := inv_pos.2 hp
  refine ⟨k, fun i => ?_, ?_, by linarith⟩
  · have := Finset.single_le_sum (f := fun i => |y i|) (fun j _ => abs_nonneg _) (Finset.mem_univ i)
    linarith
  · exact inv_le_of_inv_le₀ hp (by linarith)

/-- An iteration with a proper posterior has the properties that convergence rests on. -/
theorem moveFrom_harris (hd : Measurable fun x => (pointAt lp x).density) {K : ℕ} (hK : 0 < K)
    (hAW : ∀ k < K, A k * Matrix.of (W k) = 1) (hprob : IsProbabilityMeasure π) (hZ0 : Z ≠ 0) (hZt : Z ≠ ⊤)
    (hπ : π = Z⁻¹ • volume.withDensity fun x => ENNReal.ofReal (pointAt lp x).density) :
    Harris μ (fun p : (Fin n → ℝ) × σ => moveFrom D A W lp K 0 (fun _ => p.1) p.2) π ∧
    ∀ x, lp x ≠ none → Spreads μ (fun p : (Fin n → ℝ) × σ => moveFrom D A W lp K 0 (fun _ => p.1) p.2) π x := by
  have hfresh := fresh_moveFrom D (lp := lp) hd hAW
  have hZi : Z⁻¹ ≠ 0 := ENNReal.inv_ne_zero.2 hZt
  have hkept : MeasurePreserving (fun p : (Fin n → ℝ) × σ => moveFrom D A W lp K 0 (fun _ => p.1) p.2)
      (π.prod μ) (π.prod μ) := by
    have := moveFrom_invariant D (lp := lp) (A := A) (W := W) (K := K) hd hAW
    rw [hπ, Measure.prod_smul_left]
    exact ⟨this.measurable, by rw [Measure.map_smul, this.map_eq]⟩
  have hae : ∀ {g : (Fin n → ℝ) → ℝ≥0∞}, Measurable g → ∫⁻ y, g y ∂π = 0 → ∀ᵐ y, lp y ≠ none → g y = 0 := by
    intro g hg h0
    rw [hπ, lintegral_smul_measure, smul_eq_mul, mul_eq_zero, or_iff_right hZi,
      lintegral_withDensity_eq_lintegral_mul _ hd.ennreal_ofReal hg, lintegral_eq_zero_iff (hd.ennreal_ofReal.mul hg)] at h0
    filter_upwards [h0] with y hy hlp
    simp only [Pi.mul_apply, Pi.zero_apply, mul_eq_zero, ENNReal.ofReal_eq_zero] at hy
    exact hy.resolve_left (not_le.2 (density_pos_iff.2 hlp))
  have hpos : ∀ᵐ y ∂π, lp y ≠ none := by
    have hm : MeasurableSet {y | lp y ≠ none} := by
      have : {y | lp y ≠ none} = {y | 0 < (pointAt lp y).density} := by ext y; exact density_pos_iff.symm
      rw [this]; exact measurableSet_lt measurable_const hd
    change π {y | lp y ≠ none}ᶜ = 0
    rw [hπ, Measure.smul_apply, withDensity_apply _ hm.compl, smul_eq_mul, mul_eq_zero]
    right
    rw [setLIntegral_eq_zero_iff hm.compl hd.ennreal_ofReal]
    refine ae_of_all _ fun y hy => ?_
    rw [ENNReal.ofReal_eq_zero, ← not_lt, density_pos_iff]
    exact hy
  have hvol : (volume : Measure (Fin n → ℝ)) {y | lp y ≠ none} ≠ 0 := by
    intro h0
    have h1 : ∀ᵐ y, lp y = none := by
      change volume {y | lp y = none}ᶜ = 0
      exact h0
    have h2 : π Set.univ = 0 := by
      rw [hπ, Measure.smul_apply, withDensity_apply _ MeasurableSet.univ, Measure.restrict_univ, smul_eq_mul, mul_eq_zero]
      right
      rw [lintegral_eq_zero_iff hd.ennreal_ofReal]
      filter_upwards [h1] with y hy
      simp [pointAt, Point.density, hy]
    rw [measure_univ] at h2
    exact one_ne_zero h2
  refine ⟨⟨hfresh, hprob, hkept, fun η hη => ?_⟩, fun x hx => ?_⟩
  · obtain ⟨k, hk⟩ := exists_small_compl (π := π) (C := fun k : ℕ => Core lp ((k : ℝ) + 1))
      (fun k => measurableSet_core hd _) core_mono (hpos.mono fun y hy => core_exists hy) hη
    set R : ℝ := (k : ℝ) + 1 with hRdef
    have hR : 1 ≤ R := by
      have : (0 : ℝ) ≤ k := Nat.cast_nonneg k
      linarith
    have hR0 : 0 < R := by linarith
    set c := gaussConst (A 0) * ENNReal.ofReal (Real.exp (-(1 / 2) * ∑ j, (∑ i, (2 * R) * |W 0 i j|) ^ 2)) *
        ENNReal.ofReal (R⁻¹ * R⁻¹) with hc
    have hc0 : c ≠ 0 := by
      refine mul_ne_zero (mul_ne_zero (gaussConst_pos (hAW 0 hK)).ne' ?_) ?_
      · simp [Real.exp_pos]
      · rw [Ne, ENNReal.ofReal_eq_zero, not_le]; positivity
    have hct : c ≠ ⊤ := ENNReal.mul_ne_top (ENNReal.mul_ne_top (gaussConst_ne_top _) ENNReal.ofReal_ne_top)
      ENNReal.ofReal_ne_top
    set d := c * (ENNReal.ofReal R⁻¹ * Z) with hdd
    have hRi0 : ENNReal.ofReal R⁻¹ ≠ 0 := by rw [Ne, ENNReal.ofReal_eq_zero, not_le]; positivity
    have hd0 : d ≠ 0 := mul_ne_zero hc0 (mul_ne_zero hRi0 hZ0)
    have hdt : d ≠ ⊤ := ENNReal.mul_ne_top hct (ENNReal.mul_ne_top ENNReal.ofReal_ne_top hZt)
    refine ⟨Core lp R, d.toReal, measurableSet_core hd _, ENNReal.toReal_pos hd0 hdt, hk, ?_⟩
    rw [ENNReal.ofReal_toReal hdt]
    intro x hx B hB
    have hxn : lp x ≠ none := density_pos_iff.1 ((inv_pos.2 hR0).trans_le hx.2.1)
    have h1 := moveFrom_local_lower D (W := W) hd hK hAW hR hxn hx.1 hx.2.2 (measurableSet_core hd R)
      (fun y hy => ⟨hy.1, hy.2.1⟩) (g := B.indicator 1) (measurable_one.indicator hB)
    have e1 : ∫⁻ s, B.indicator (1 : (Fin n → ℝ) → ℝ≥0∞) (moveFrom D A W lp K 0 (fun _ => x) s).1 ∂μ =
        μ {s | (moveFrom D A W lp K 0 (fun _ => x) s).1 ∈ B} := by
      have hm : MeasurableSet {s | (moveFrom D A W lp K 0 (fun _ => x) s).1 ∈ B} :=
        hfresh.measurable_row 1 x hB
      rw [← lintegral_indicator_one hm]
      rfl
    rw [e1, ← hc, lintegral_indicator_one hB, Measure.restrict_apply hB] at h1
    refine le_trans ?_ h1
    have h2 : π (B ∩ Core lp R) ≤ Z⁻¹ * (ENNReal.ofReal R * volume (B ∩ Core lp R)) := by
      rw [hπ, Measure.smul_apply, withDensity_apply _ (hB.inter (measurableSet_core hd R)), smul_eq_mul]
      gcongr
      calc _ ≤ ∫⁻ _ in B ∩ Core lp R, ENNReal.ofReal R := by
            refine setLIntegral_mono measurable_const fun y hy => ?_
            exact ENNReal.ofReal_le_ofReal hy.2.2.2
        _ = _ := by rw [setLIntegral_const]
    calc d * π (B ∩ Core lp R) ≤ d * (Z⁻¹ * (ENNReal.ofReal R * volume (B ∩ Core lp R))) := by gcongr
      _ = c * ((ENNReal.ofReal R⁻¹ * ENNReal.ofReal R) * (Z * Z⁻¹) * volume (B ∩ Core lp R)) := by
          rw [hdd]; ring
      _ = c * volume (B ∩ Core lp R) := by
          rw [ENNReal.mul_inv_cancel hZ0 hZt, ← ENNReal.ofReal_mul (inv_pos.2 hR0).le, inv_mul_cancel₀ hR0.ne',
            ENNReal.ofReal_one, one_mul, one_mul]
  · exact spreads_of_bound hfresh hkept (rejectAt_lt_one hd (hAW 0 hK) hvol hx) fun g hg h0 =>
      moveFrom_null D hd hK hAW hg (hae hg h0) x

end fixed

end lower
end Verif
