import Verif.Lemmas.Ergodic

/-! # Lower bounds for the law of an iteration -/

namespace Verif
open MeasureTheory Finset Function
open scoped ENNReal Matrix
variable {n : ℕ} {σ : Type} [MeasurableSpace σ] {μ : Measure σ} {G : Rng σ XR}

section gauss

theorem gauss_symm (W : Fin n → Fin n → ℝ) (x y : Fin n → ℝ) : gauss W x y = gauss W y x := by
  unfold gauss
  congr 2
  refine sum_congr rfl fun j _ => ?_
  rw [← neg_sq, ← sum_neg_distrib]
  congr 1
  exact sum_congr rfl fun i _ => by ring

theorem gauss_ge (W : Fin n → Fin n → ℝ) {x y : Fin n → ℝ} {C : ℝ} (h : ∀ i, |y i - x i| ≤ C) :
    Real.exp (-(1 / 2) * ∑ j, (∑ i, C * |W i j|) ^ 2) ≤ gauss W x y := by
  unfold gauss
  refine Real.exp_le_exp.2 ?_
  rw [neg_mul, neg_mul, neg_le_neg_iff]
  refine mul_le_mul_of_nonneg_left (sum_le_sum fun j _ => ?_) (by norm_num)
  rw [← sq_abs]
  refine pow_le_pow_left₀ (abs_nonneg _) ?_ 2
  refine (abs_sum_le_sum_abs _ _).trans (sum_le_sum fun i _ => ?_)
  rw [abs_mul]
  exact mul_le_mul_of_nonneg_right (h i) (abs_nonneg _)

theorem gaussConst_pos {A : Matrix (Fin n) (Fin n) ℝ} {W : Matrix (Fin n) (Fin n) ℝ} (h : A * W = 1) :
    0 < gaussConst A := by
  unfold gaussConst
  have hd : A.det ≠ 0 := by
    intro h0
    have := congrArg Matrix.det h
    rw [Matrix.det_mul, h0, zero_mul, Matrix.det_one] at this
    exact zero_ne_one this
  refine ENNReal.mul_pos ?_ ?_
  · rw [Ne, ENNReal.ofReal_eq_zero, not_le, Matrix.det_transpose]
    exact abs_pos.2 (inv_ne_zero hd)
  · rw [Ne, ENNReal.ofReal_eq_zero, not_le]
    positivity

theorem gaussConst_ne_top (A : Matrix (Fin n) (Fin n) ℝ) : gaussConst A ≠ ⊤ :=
  ENNReal.mul_ne_top ENNReal.ofReal_ne_top ENNReal.ofReal_ne_top

end gauss

section lower
variable (D : IdealRng G n μ) {A : ℕ → Matrix (Fin n) (Fin n) ℝ}
  {W : ℕ → Fin n → Fin n → ℝ} {lp : (Fin n → ℝ) → Option ℝ}

/-- Iterations stay where the posterior is positive. -/
theorem moveFrom_mem (r : ℕ) : ∀ (l : ℕ) (P : ℕ → Fin n → ℝ) (s : σ), lp (P 0) ≠ none →
    lp (moveFrom D A W lp r l P s).1 ≠ none := by
  induction r with
  | zero => intro l P s h; exact h
  | succ r ih =>
    intro l P s h
    have hu : ∀ y, lp (update P (l + 1) y 0) ≠ none := fun y => by
      rw [update_of_ne (by omega)]; exact h
    rw [moveFrom]
    split_ifs with h1
    · exact density_pos_iff.1 h1
    · exact density_pos_iff.1 h1
    · exact ih _ _ _ (hu _)
    · exact ih _ _ _ (hu _)

attribute [local irreducible] gauss propDensity

theorem alphaAt_zero_ge {M : ℝ} (hM : ∀ y, (pointAt lp y).density ≤ M) {x : Fin n → ℝ} (hx : lp x ≠ none)
    (y : Fin n → ℝ) : (pointAt lp y).density / M ≤ alphaAt W lp 0 (update (fun _ => x) 1 y) := by
  have hx0 := density_pos_iff.2 hx
  have hM0 : 0 < M := hx0.trans_le (hM x)
  have hg : 0 < gauss (W 0) x y := by unfold gauss; exact Real.exp_pos _
  have e : alphaAt W lp 0 (update (fun _ => x) 1 y) = min 1 ((pointAt lp y).density / (pointAt lp x).density) := by
    unfold alphaAt
    rw [drAlpha]
    simp [pointAt, update_of_ne]
    rw [gauss_symm (W 0) y x, mul_div_mul_right _ _ hg.ne']
  rw [e]
  refine le_min ((div_le_one hM0).2 (hM y)) ?_
  exact div_le_div_of_nonneg_left (Point.density_nonneg _) hx0 (hM x)

variable [IsProbabilityMeasure μ]

theorem fresh_moveFrom (hd : Measurable fun x => (pointAt lp x).density) {K : ℕ}
    (hAW : ∀ k < K, A k * Matrix.of (W k) = 1) :
    Fresh μ (fun p : (Fin n → ℝ) × σ => moveFrom D A W lp K 0 (fun _ => p.1) p.2) := by
  refine ⟨(moveFrom_invariant D hd hAW).measurable, fun x g hg => ?_⟩
  have hgb : Measurable fun y => ∫⁻ s, g (y, s) ∂μ := hg.lintegral_prod_right'
  have e1 := lintegral_moveFrom D (A := A) (W := W) hd hAW hg K 0 (by omega) (fun _ => x)
  have e2 := lintegral_moveFrom D (A := A) (W := W) hd hAW
    (g := fun p : (Fin n → ℝ) × σ => ∫⁻ s, g (p.1, s) ∂μ) (hgb.comp measurable_fst) K 0 (by omega) (fun _ => x)
  simp only [lintegral_const, measure_univ, mul_one] at e2
  exact e1.trans e2.symm

/-- The first stage alone gives a lower bound for the expectations after an iteration. -/
theorem moveFrom_lower (hd : Measurable fun x => (pointAt lp x).density) {K : ℕ} (hK : 0 < K)
    (hAW : ∀ k < K, A k * Matrix.of (W k) = 1) {g : (Fin n → ℝ) → ℝ≥0∞} (hg : Measurable g) (x : Fin n → ℝ) :
    ∫⁻ y, propDensity (A 0) (W 0) x y * (ENNReal.ofReal (alphaAt W lp 0 (update (fun _ => x) 1 y)) * g y) ≤
      ∫⁻ s, g (moveFrom D A W lp K 0 (fun _ => x) s).1 ∂μ := by
  have e := lintegral_moveFrom D (A := A) (W := W) hd hAW (g := fun p => g p.1) (hg.comp measurable_fst) K 0
    (by omega) (fun _ => x)
  simp only [lintegral_const, measure_univ, mul_one] at e
  rw [e]
  obtain ⟨K, rfl⟩ : ∃ k, K = k + 1 := ⟨K - 1, by omega⟩
  rw [expectAfter]
  exact lintegral_mono fun y => mul_le_mul_right (le_add_right le_rfl) _

/-- On a bounded set the law of an iteration is at least a multiple of the posterior. -/
theorem moveFrom_posterior_lower (hd : Measurable fun x => (pointAt lp x).density) {K : ℕ} (hK : 0 < K)
    (hAW : ∀ k < K, A k * Matrix.of (W k) = 1) {M C : ℝ} (hM : ∀ y, (pointAt lp y).density ≤ M)
    (hC : ∀ x y, lp x ≠ none → lp y ≠ none → ∀ i, |y i - x i| ≤ C)
    {g : (Fin n → ℝ) → ℝ≥0∞} (hg : Measurable g) {x : Fin n → ℝ} (hx : lp x ≠ none) :
    gaussConst (A 0) * ENNReal.ofReal (Real.exp (-(1 / 2) * ∑ j, (∑ i, C * |W 0 i j|) ^ 2)) * ENNReal.ofReal M⁻¹ *
        ∫⁻ y, ENNReal.ofReal (pointAt lp y).density * g y ≤
      ∫⁻ s, g (moveFrom D A W lp K 0 (fun _ => x) s).1 ∂μ := by
  refine le_trans ?_ (moveFrom_lower D hd hK hAW hg x)
  have hm : Measurable fun y => ENNReal.ofReal (pointAt lp y).density * g y := hd.ennreal_ofReal.mul hg
  rw [← lintegral_const_mul _ hm]
  refine lintegral_mono fun y => ?_
  by_cases hy : lp y = none
  · have : (pointAt lp y).density = 0 := by simp [pointAt, Point.density, hy]
    simp [this]
  · have hM0 : 0 < M := (density_pos_iff.2 hx).trans_le (hM x)
    have h1 : gaussConst (A 0) * ENNReal.ofReal (Real.exp (-(1 / 2) * ∑ j, (∑ i, C * |W 0 i j|) ^ 2)) ≤
        propDensity (A 0) (W 0) x y := by
      unfold propDensity
      gcongr
      exact gauss_ge (W 0) (hC x y hx hy)
    have h2 : ENNReal.ofReal M⁻¹ * ENNReal.ofReal (pointAt lp y).density ≤
        ENNReal.ofReal (alphaAt W lp 0 (update (fun _ => x) 1 y)) := by
      rw [← ENNReal.ofReal_mul (inv_nonneg.2 hM0.le), inv_mul_eq_div]
      exact ENNReal.ofReal_le_ofReal (alphaAt_zero_ge hM hx y)
    calc _ = gaussConst (A 0) * ENNReal.ofReal (Real.exp (-(1 / 2) * ∑ j, (∑ i, C * |W 0 i j|) ^ 2)) *
          ((ENNReal.ofReal M⁻¹ * ENNReal.ofReal (pointAt lp y).density) * g y) := by ring
      _ ≤ _ := by gcongr

end lower

end Verif
