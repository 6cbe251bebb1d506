import Verif.Lemmas.FactorMove
import Verif.Lemmas.Ergodic

/-! # Transitions with near proposal covariances are near

For one stage, where the acceptance probability does not depend on the proposal. -/

namespace Verif
open MeasureTheory Function Matrix Finset
open scoped ENNReal

section gauss
variable {n : ℕ} {A₁ A₂ : Matrix (Fin n) (Fin n) ℝ} {W₁ W₂ : Fin n → Fin n → ℝ}

/-- the square of the length of `A w`: the variance of the proposal in direction `w` if `A` is its factor -/
def quadForm (A : Matrix (Fin n) (Fin n) ℝ) (w : Fin n → ℝ) : ℝ := (A *ᵥ w) ⬝ᵥ (A *ᵥ w)

theorem quadForm_smul (a : ℝ) (A : Matrix (Fin n) (Fin n) ℝ) (w : Fin n → ℝ) :
    quadForm (a • A) w = a ^ 2 * quadForm A w := by
  unfold quadForm
  rw [smul_mulVec, smul_dotProduct, dotProduct_smul, smul_eq_mul, smul_eq_mul]
  ring

theorem quadForm_one (w : Fin n → ℝ) : quadForm (1 : Matrix (Fin n) (Fin n) ℝ) w = ∑ i, w i ^ 2 := by
  simp [quadForm, dotProduct, sq]

theorem quadForm_gram (A : Matrix (Fin n) (Fin n) ℝ) (w : Fin n → ℝ) :
    quadForm A w = w ⬝ᵥ ((Aᵀ * A) *ᵥ w) := by
  unfold quadForm
  rw [← mulVec_mulVec, dotProduct_mulVec w, vecMul_transpose]

theorem gauss_eq (W : Fin n → Fin n → ℝ) (x y : Fin n → ℝ) :
    gauss W x y = Real.exp (-(1 / 2) * (((y - x) ᵥ* of W) ⬝ᵥ ((y - x) ᵥ* of W))) := by
  unfold gauss
  congr 2
  simp [dotProduct, vecMul, sq]

theorem dotProduct_self_nonneg' (u : Fin n → ℝ) : 0 ≤ u ⬝ᵥ u :=
  sum_nonneg fun i _ => mul_self_nonneg (u i)

theorem dotProduct_sq_le (u v : Fin n → ℝ) : (u ⬝ᵥ v) ^ 2 ≤ (u ⬝ᵥ u) * (v ⬝ᵥ v) := by
  have := sum_mul_sq_le_sq_mul_sq univ u v
  simpa [dotProduct, sq] using this

/-- the proposal with the larger variances has the larger (unnormalised) density -/
theorem gauss_mono (h₁ : A₁ * of W₁ = 1) (h₂ : A₂ * of W₂ = 1)
    (h : ∀ w, quadForm A₁ w ≤ quadForm A₂ w) (x y : Fin n → ℝ) : gauss W₁ x y ≤ gauss W₂ x y := by
  rw [gauss_eq, gauss_eq]
  refine Real.exp_le_exp.2 ?_
  rw [neg_mul, neg_mul, neg_le_neg_iff]
  refine mul_le_mul_of_nonneg_left ?_ (by norm_num)
  set d := y - x
  set u := d ᵥ* of W₂ with hu
  set w := of W₂ *ᵥ u with hw
  have h3 : A₂ *ᵥ w = u := by rw [hw, mulVec_mulVec, h₂, one_mulVec]
  have h4 : u ⬝ᵥ u = d ⬝ᵥ w := by rw [hw, dotProduct_mulVec, ← hu]
  have h5 : d ⬝ᵥ w = (d ᵥ* of W₁) ⬝ᵥ (A₁ *ᵥ w) := by
    rw [dotProduct_mulVec (d ᵥ* of W₁), vecMul_vecMul, mul_eq_one_comm.1 h₁, vecMul_one]
  have h6 := dotProduct_sq_le (d ᵥ* of W₁) (A₁ *ᵥ w)
  have h7 : quadForm A₁ w ≤ u ⬝ᵥ u := by
    refine (h w).trans_eq ?_
    unfold quadForm
    rw [h3]
  have h8 : 0 ≤ (d ᵥ* of W₁) ⬝ᵥ (d ᵥ* of W₁) := dotProduct_self_nonneg' _
  rw [← h5, ← h4] at h6
  have h9 : (u ⬝ᵥ u) ^ 2 ≤ ((d ᵥ* of W₁) ⬝ᵥ (d ᵥ* of W₁)) * (u ⬝ᵥ u) :=
    h6.trans (mul_le_mul_of_nonneg_left h7 h8)
  rcases (dotProduct_self_nonneg' u).eq_or_lt with h0 | h0
  · rw [← h0]; exact h8
  · nlinarith

/-- and the smaller normalising constant -/
theorem gaussConst_anti (h₁ : A₁ * of W₁ = 1) (h₂ : A₂ * of W₂ = 1)
    (h : ∀ w, quadForm A₁ w ≤ quadForm A₂ w) : gaussConst A₂ ≤ gaussConst A₁ := by
  have key : ∀ {A : Matrix (Fin n) (Fin n) ℝ} {W : Fin n → Fin n → ℝ}, A * of W = 1 →
      gaussConst A * ∫⁻ y, ENNReal.ofReal (gauss W 0 y) = 1 := by
    intro A W hA
    have := lintegral_propDensity hA 0
    unfold propDensity at this
    have hm : Measurable fun y => ENNReal.ofReal (gauss W 0 y) :=
      (measurable_gauss W measurable_const measurable_id).ennreal_ofReal
    rwa [lintegral_const_mul _ hm] at this
  have e1 := key h₁
  have e2 := key h₂
  set I₁ := ∫⁻ y, ENNReal.ofReal (gauss W₁ 0 y)
  set I₂ := ∫⁻ y, ENNReal.ofReal (gauss W₂ 0 y)
  have hI : I₁ ≤ I₂ := lintegral_mono fun y => ENNReal.ofReal_le_ofReal (gauss_mono h₁ h₂ h 0 y)
  calc gaussConst A₂ = gaussConst A₂ * (gaussConst A₁ * I₁) := by rw [e1, mul_one]
    _ = gaussConst A₁ * (gaussConst A₂ * I₁) := by ring
    _ ≤ gaussConst A₁ * (gaussConst A₂ * I₂) := by gcongr
    _ = gaussConst A₁ := by rw [e2, mul_one]

theorem gaussConst_smul {a : ℝ} (ha : 0 < a) (A : Matrix (Fin n) (Fin n) ℝ) :
    gaussConst (a • A) = ENNReal.ofReal (a⁻¹ ^ n) * gaussConst A := by
  unfold gaussConst
  rw [transpose_smul, det_smul, Fintype.card_fin, mul_inv, abs_mul, ENNReal.ofReal_mul (abs_nonneg _),
    ← inv_pow, abs_of_pos (pow_pos (inv_pos.2 ha) n)]
  ring

/-- If the variances under `A₂` lie between `ρ²` and `τ²` times those under `A₁`, the density of the
proposal by `A₂` is at least `(ρ/τ)ⁿ` times that of the proposal by `ρ A₁`. -/
theorem propDensity_ge {ρ τ : ℝ} (hρ : 0 < ρ) (hτ : 0 < τ) {Wρ : Fin n → Fin n → ℝ} (h₁ : A₁.det ≠ 0)
    (hW : (ρ • A₁) * of Wρ = 1) (h₂ : A₂ * of W₂ = 1) (hlo : ∀ w, ρ ^ 2 * quadForm A₁ w ≤ quadForm A₂ w)
    (hhi : ∀ w, quadForm A₂ w ≤ τ ^ 2 * quadForm A₁ w) (x y : Fin n → ℝ) :
    ENNReal.ofReal ((ρ / τ) ^ n) * propDensity (ρ • A₁) Wρ x y ≤ propDensity A₂ W₂ x y := by
  have hτW : (τ • A₁) * of (fun i j => (τ • A₁)⁻¹ i j) = 1 := by
    refine mul_nonsing_inv _ (isUnit_iff_ne_zero.2 ?_)
    rw [det_smul]
    exact mul_ne_zero (pow_ne_zero _ hτ.ne') h₁
  have e1 := gaussConst_anti h₂ hτW fun w => by rw [quadForm_smul]; exact hhi w
  have e2 := gauss_mono hW h₂ (fun w => by rw [quadForm_smul]; exact hlo w) x y
  unfold propDensity
  have e3 : ENNReal.ofReal ((ρ / τ) ^ n) * gaussConst (ρ • A₁) = gaussConst (τ • A₁) := by
    rw [gaussConst_smul hρ, gaussConst_smul hτ, ← mul_assoc, ← ENNReal.ofReal_mul (by positivity), ← mul_pow]
    congr 3
    field_simp
  rw [← mul_assoc, e3]
  gcongr

end gauss

section step
variable {n : ℕ} {σ : Type} [MeasurableSpace σ] {μ : Measure σ} [IsProbabilityMeasure μ] {G : Rng σ XR}
  (D : IdealRng G n μ) {lp : (Fin n → ℝ) → Option ℝ} {ds : List ℝ} {ntry : ℤ}

theorem alphaAt_first (W : ℕ → Fin n → Fin n → ℝ) (x y : Fin n → ℝ) :
    alphaAt W lp 0 (update (fun _ => x) 1 y) = min 1 ((pointAt lp y).density / (pointAt lp x).density) := by
  have hg : 0 < gauss (W 0) x y := by unfold gauss; exact Real.exp_pos _
  unfold alphaAt
  rw [drAlpha]
  simp [pointAt, update_of_ne]
  rw [gauss_symm (W 0) y x, mul_div_mul_right _ _ hg.ne']

/-- the inverse of a factor, as a function -/
noncomputable def invOf (R : Fin n → Fin n → ℝ) : Fin n → Fin n → ℝ := fun i j => (of R)⁻¹ i j

theorem mul_invOf {R : Fin n → Fin n → ℝ} (hR : (of R).det ≠ 0) : of R * of (invOf R) = 1 :=
  mul_nonsing_inv _ (isUnit_iff_ne_zero.2 hR)

/-- expectations after one step with one stage -/
theorem expect_factorMove (hd : Measurable fun x => (pointAt lp x).density) (hnt : ntry ≤ 1)
    {R : Fin n → Fin n → ℝ} (hR : (of R).det ≠ 0) {g : (Fin n → ℝ) → ℝ≥0∞} (hg : Measurable g) (x : Fin n → ℝ) :
    expect μ (factorMove D lp ds ntry R) 1 g x = ∫⁻ y, propDensity (of R) (invOf R) x y *
      (ENNReal.ofReal (min 1 ((pointAt lp y).density / (pointAt lp x).density)) * g y +
        ENNReal.ofReal (1 - min 1 ((pointAt lp y).density / (pointAt lp x).density)) * g x) := by
  have hsf : ∀ k, stageFactor ds ntry R k = R := fun k => by
    funext i j; simp [stageFactor, not_lt.2 hnt]
  have hsi : ∀ k, stageInverse ds ntry R k = invOf R := fun k => by
    unfold stageInverse invOf; rw [hsf]
  have hmax : max 1 ntry.toNat = 1 := by omega
  unfold expect
  simp only [iterate_one, factorMove_of_unit D ds ntry hR, hmax]
  have e := lintegral_moveFrom D (A := fun k => of (stageFactor ds ntry R k)) (W := stageInverse ds ntry R) hd
    (K := 1) (fun k _ => by rw [hsf, hsi]; exact mul_invOf hR) (g := fun p => g p.1) (hg.comp measurable_fst) 1 0
    (by omega) (fun _ => x)
  rw [e, expectAfter]
  simp only [expectAfter, lintegral_const, measure_univ, mul_one, zero_add, alphaAt_first, hsf, hsi]
  refine lintegral_congr fun y => ?_
  rw [update_of_ne (by omega)]

theorem measurable_step_kernel (hd : Measurable fun x => (pointAt lp x).density)
    {g : (Fin n → ℝ) → ℝ≥0∞} (hg : Measurable g) (x : Fin n → ℝ) : Measurable fun y =>
      ENNReal.ofReal (min 1 ((pointAt lp y).density / (pointAt lp x).density)) * g y +
        ENNReal.ofReal (1 - min 1 ((pointAt lp y).density / (pointAt lp x).density)) * g x := by
  have h1 : Measurable fun y => min 1 ((pointAt lp y).density / (pointAt lp x).density) :=
    measurable_const.min (hd.div_const _)
  exact (h1.ennreal_ofReal.mul hg).add ((measurable_const.sub h1).ennreal_ofReal.mul_const _)

/-- Overlap of the transitions. -/
theorem expect_overlap (hd : Measurable fun x => (pointAt lp x).density) (hnt : ntry ≤ 1)
    {R₁ R₂ : Fin n → Fin n → ℝ} (h₁ : (of R₁).det ≠ 0) (h₂ : (of R₂).det ≠ 0) {ρ τ : ℝ} (hρ : 0 < ρ) (hτ : 0 < τ)
    (hlo : ∀ w, ρ ^ 2 * quadForm (of R₁) w ≤ quadForm (of R₂) w)
    (hhi : ∀ w, quadForm (of R₂) w ≤ τ ^ 2 * quadForm (of R₁) w)
    {g : (Fin n → ℝ) → ℝ≥0∞} (hg : Measurable g) (x : Fin n → ℝ) :
    ENNReal.ofReal ((ρ / τ) ^ n) * expect μ (factorMove D lp ds ntry fun i j => ρ * R₁ i j) 1 g x ≤
      expect μ (factorMove D lp ds ntry R₂) 1 g x := by
  have e : (of fun i j => ρ * R₁ i j) = ρ • of R₁ := by ext i j; simp
  have hdet : (of fun i j => ρ * R₁ i j).det ≠ 0 := by
    rw [e, det_smul]
    exact mul_ne_zero (pow_ne_zero _ hρ.ne') h₁
  have hp : Measurable fun y => propDensity (of fun i j => ρ * R₁ i j) (invOf fun i j => ρ * R₁ i j) x y :=
    measurable_propDensity _ _ measurable_const measurable_id
  rw [expect_factorMove D hd hnt hdet hg, expect_factorMove D hd hnt h₂ hg]
  refine (lintegral_const_mul _ (hp.mul (measurable_step_kernel hd hg x))).symm.trans_le ?_
  refine lintegral_mono fun y => ?_
  rw [Pi.mul_apply, ← mul_assoc]
  gcongr
  have hW := mul_invOf hdet
  rw [e] at hW ⊢
  exact propDensity_ge hρ hτ h₁ hW (mul_invOf h₂) hlo hhi x y

/-- **Near covariances, near transitions.** If the variances under `R₂` lie between `t²` and `1/t²` times
those under `R₁`, expectations after a step differ by at most `1 - t²ⁿ`. -/
theorem expect_close (hd : Measurable fun x => (pointAt lp x).density) (h0 : ∀ d ∈ ds, d ≠ 0) (hnt : ntry ≤ 1)
    {R₁ R₂ : Fin n → Fin n → ℝ} (h₁ : (of R₁).det ≠ 0) (h₂ : (of R₂).det ≠ 0) {t : ℝ} (ht : 0 < t) (ht1 : t ≤ 1)
    (hlo : ∀ w, t ^ 2 * quadForm (of R₁) w ≤ quadForm (of R₂) w)
    (hhi : ∀ w, quadForm (of R₂) w ≤ t⁻¹ ^ 2 * quadForm (of R₁) w)
    {g : (Fin n → ℝ) → ℝ≥0∞} (hg : Measurable g) (hg1 : ∀ y, g y ≤ 1) (x : Fin n → ℝ) :
    expect μ (factorMove D lp ds ntry R₁) 1 g x + ENNReal.ofReal ((t ^ 2) ^ n) ≤
      expect μ (factorMove D lp ds ntry R₂) 1 g x + 1 ∧
    expect μ (factorMove D lp ds ntry R₂) 1 g x + ENNReal.ofReal ((t ^ 2) ^ n) ≤
      expect μ (factorMove D lp ds ntry R₁) 1 g x + 1 := by
  have hti : 0 < t⁻¹ := inv_pos.2 ht
  have hq : ∀ A : Matrix (Fin n) (Fin n) ℝ, ∀ w, 0 ≤ quadForm A w := fun A w => dotProduct_self_nonneg' _
  have e : t / t⁻¹ = t ^ 2 := by field_simp
  have a₂ := fun {g : (Fin n → ℝ) → ℝ≥0∞} (hg : Measurable g) =>
    expect_overlap D (ds := ds) hd hnt h₁ h₂ ht hti hlo hhi hg x
  have a₁ := fun {g : (Fin n → ℝ) → ℝ≥0∞} (hg : Measurable g) =>
    expect_overlap D (ds := ds) hd hnt h₁ h₁ ht hti
      (fun w => mul_le_of_le_one_left (hq _ w) (pow_le_one₀ ht.le ht1))
      (fun w => le_mul_of_one_le_left (hq _ w) (one_le_pow₀ ((one_le_inv₀ ht).2 ht1))) hg x
  rw [e] at a₁ a₂
  set κ := ENNReal.ofReal ((t ^ 2) ^ n)
  have hc : Measurable fun y => 1 - g y := measurable_const.sub hg
  have split : ∀ R, expect μ (factorMove D lp ds ntry R) 1 g x +
      expect μ (factorMove D lp ds ntry R) 1 (fun y => 1 - g y) x = 1 := by
    intro R
    have hr := (fresh_factorMove D hd h0 ntry R).measurable_row 1 x
    unfold expect
    refine (lintegral_add_left (hg.comp hr) _).symm.trans ?_
    have : ∀ s, g ((factorMove D lp ds ntry R)^[1] (x, s)).1 + (1 - g ((factorMove D lp ds ntry R)^[1] (x, s)).1) = 1 :=
      fun s => add_tsub_cancel_of_le (hg1 _)
    simp only [Function.comp_apply, this, lintegral_const, measure_univ, mul_one]
  have main : ∀ R R', (∀ {g : (Fin n → ℝ) → ℝ≥0∞}, Measurable g →
      κ * expect μ (factorMove D lp ds ntry fun i j => t * R₁ i j) 1 g x ≤ expect μ (factorMove D lp ds ntry R) 1 g x) →
      (∀ {g : (Fin n → ℝ) → ℝ≥0∞}, Measurable g →
      κ * expect μ (factorMove D lp ds ntry fun i j => t * R₁ i j) 1 g x ≤ expect μ (factorMove D lp ds ntry R') 1 g x) →
      expect μ (factorMove D lp ds ntry R) 1 g x + κ ≤ expect μ (factorMove D lp ds ntry R') 1 g x + 1 := by
    intro R R' h h'
    calc expect μ (factorMove D lp ds ntry R) 1 g x + κ
        = expect μ (factorMove D lp ds ntry R) 1 g x +
          (κ * expect μ (factorMove D lp ds ntry fun i j => t * R₁ i j) 1 g x +
            κ * expect μ (factorMove D lp ds ntry fun i j => t * R₁ i j) 1 (fun y => 1 - g y) x) := by
          rw [← mul_add, split, mul_one]
      _ ≤ expect μ (factorMove D lp ds ntry R) 1 g x + (expect μ (factorMove D lp ds ntry R') 1 g x +
            expect μ (factorMove D lp ds ntry R) 1 (fun y => 1 - g y) x) := by
          gcongr
          · exact h' hg
          · exact h hc
      _ = expect μ (factorMove D lp ds ntry R') 1 g x + (expect μ (factorMove D lp ds ntry R) 1 g x +
            expect μ (factorMove D lp ds ntry R) 1 (fun y => 1 - g y) x) := by ring
      _ = _ := by rw [split]
  exact ⟨main _ _ a₁ a₂, main _ _ a₂ a₁⟩

theorem factorMove_mem (R : Fin n → Fin n → ℝ) {x : Fin n → ℝ} (s : σ) (hx : lp x ≠ none) :
    lp (factorMove D lp ds ntry R (x, s)).1 ≠ none := by
  by_cases hR : (of R).det = 0
  · rw [show factorMove D lp ds ntry R (x, s) = (x, s) from if_pos hR]; exact hx
  · rw [factorMove_of_unit D ds ntry hR]
    exact moveFrom_mem D _ 0 (fun _ => x) s hx

end step

end Verif
