import Verif.Lemmas.KernelClose

/-! # Transitions with near proposal covariances are near: two stages

The acceptance probability of the second stage depends on the proposal through a ratio of proposal densities
only, so its logarithm moves little where the proposals are likely to fall. -/

namespace Verif
open MeasureTheory Function Matrix Finset
open scoped ENNReal

section gauss
variable {n : ℕ} {A A₁ A₂ : Matrix (Fin n) (Fin n) ℝ} {W W₁ W₂ : Fin n → Fin n → ℝ}

/-- the square of the length of `d W`: twice the negative logarithm of the proposal density -/
def invQuad (W : Fin n → Fin n → ℝ) (d : Fin n → ℝ) : ℝ := (d ᵥ* of W) ⬝ᵥ (d ᵥ* of W)

theorem invQuad_nonneg (W : Fin n → Fin n → ℝ) (d : Fin n → ℝ) : 0 ≤ invQuad W d := dotProduct_self_nonneg' _

theorem gauss_invQuad (W : Fin n → Fin n → ℝ) (x y : Fin n → ℝ) :
    gauss W x y = Real.exp (-(1 / 2) * invQuad W (y - x)) := gauss_eq W x y

theorem invQuad_smul (a : ℝ) (W : Fin n → Fin n → ℝ) (d : Fin n → ℝ) :
    invQuad (fun i j => a * W i j) d = a ^ 2 * invQuad W d := by
  have e : (of fun i j => a * W i j) = a • of W := by ext i j; simp
  unfold invQuad
  rw [e, vecMul_smul, smul_dotProduct, dotProduct_smul, smul_eq_mul, smul_eq_mul]
  ring

theorem invQuad_sub_le (W : Fin n → Fin n → ℝ) (d d' : Fin n → ℝ) :
    invQuad W (d - d') ≤ 2 * invQuad W d + 2 * invQuad W d' := by
  unfold invQuad
  rw [sub_vecMul]
  simp only [dotProduct, Pi.sub_apply, mul_sum, ← sum_add_distrib]
  refine sum_le_sum fun i _ => ?_
  nlinarith [sq_nonneg ((d ᵥ* of W) i + (d' ᵥ* of W) i)]

theorem measurable_invQuad (W : Fin n → Fin n → ℝ) {α : Type} [MeasurableSpace α] {f : α → Fin n → ℝ}
    (hf : Measurable f) : Measurable fun a => invQuad W (f a) := by
  unfold invQuad
  simp only [dotProduct, vecMul]
  have h : ∀ i, Measurable fun a => f a i := fun i => (measurable_pi_apply i).comp hf
  fun_prop

theorem invQuad_anti (h₁ : A₁ * of W₁ = 1) (h₂ : A₂ * of W₂ = 1)
    (h : ∀ w, quadForm A₁ w ≤ quadForm A₂ w) (d : Fin n → ℝ) : invQuad W₂ d ≤ invQuad W₁ d := by
  have := gauss_mono h₁ h₂ h 0 d
  rw [gauss_invQuad, gauss_invQuad, Real.exp_le_exp, sub_zero] at this
  linarith

/-- near factors have near inverse forms -/
theorem invQuad_near (h₁ : A₁ * of W₁ = 1) (h₂ : A₂ * of W₂ = 1) {t : ℝ} (ht : 0 < t) (ht1 : t ≤ 1)
    (hlo : ∀ w, t ^ 2 * quadForm A₁ w ≤ quadForm A₂ w) (hhi : ∀ w, quadForm A₂ w ≤ t⁻¹ ^ 2 * quadForm A₁ w)
    (d : Fin n → ℝ) : |invQuad W₂ d - invQuad W₁ d| ≤ (t⁻¹ ^ 2 - 1) * invQuad W₁ d := by
  have hs : ∀ {a : ℝ}, a ≠ 0 → (a • A₁) * of (fun i j => a⁻¹ * W₁ i j) = 1 := by
    intro a ha
    have e : (of fun i j => a⁻¹ * W₁ i j) = a⁻¹ • of W₁ := by ext i j; simp
    rw [e, smul_mul_smul_comm, mul_inv_cancel₀ ha, h₁, one_smul]
  have a1 := invQuad_anti (hs ht.ne') h₂ (fun w => by rw [quadForm_smul]; exact hlo w) d
  have a2 := invQuad_anti h₂ (hs (inv_ne_zero ht.ne')) (fun w => by rw [quadForm_smul]; exact hhi w) d
  rw [invQuad_smul] at a1 a2
  rw [inv_inv] at a2
  have h0 := invQuad_nonneg W₁ d
  have hti : t⁻¹ ^ 2 * t ^ 2 = 1 := by rw [← mul_pow, inv_mul_cancel₀ ht.ne', one_pow]
  have ht2 : t ^ 2 ≤ 1 := pow_le_one₀ ht.le ht1
  have hp : 0 < t ^ 2 := by positivity
  have hi : 1 - t ^ 2 ≤ t⁻¹ ^ 2 - 1 := by nlinarith [sq_nonneg (t⁻¹ - t), mul_inv_cancel₀ ht.ne']
  rw [abs_le]
  constructor
  · nlinarith
  · nlinarith

theorem measurable_prop (A : Matrix (Fin n) (Fin n) ℝ) (W : Fin n → Fin n → ℝ) (x : Fin n → ℝ) :
    Measurable fun y => propDensity A W x y := measurable_propDensity _ _ measurable_const measurable_id

/-- The expected square of the length of `(y - x) W` has a bound that depends on the dimension only. -/
theorem lintegral_invQuad (h : A * of W = 1) (x : Fin n → ℝ) :
    ∫⁻ y, propDensity A W x y * ENNReal.ofReal (invQuad W (y - x)) ≤ ENNReal.ofReal (4 * √2 ^ n) := by
  have h2 : (0 : ℝ) < √2 := Real.sqrt_pos.2 (by norm_num)
  have hW : (√2 • A) * of (fun i j => (√2)⁻¹ * W i j) = 1 := by
    have e : (of fun i j => (√2)⁻¹ * W i j) = (√2)⁻¹ • of W := by ext i j; simp
    rw [e, smul_mul_smul_comm, mul_inv_cancel₀ h2.ne', h, one_smul]
  have key : ∀ y, propDensity A W x y * ENNReal.ofReal (invQuad W (y - x)) ≤
      ENNReal.ofReal (4 * √2 ^ n) * propDensity (√2 • A) (fun i j => (√2)⁻¹ * W i j) x y := by
    intro y
    unfold propDensity
    rw [gaussConst_smul h2, gauss_invQuad, gauss_invQuad, invQuad_smul, inv_pow (√2) 2, Real.sq_sqrt (by norm_num)]
    set Q := invQuad W (y - x)
    have hQ : 0 ≤ Q := invQuad_nonneg _ _
    have e1 : Real.exp (-(1 / 2) * Q) * Q ≤ 4 * Real.exp (-(1 / 2) * (2⁻¹ * Q)) := by
      have h3 : Q / 4 ≤ Real.exp (Q / 4) := by linarith [Real.add_one_le_exp (Q / 4)]
      have h4 : Real.exp (-(1 / 2) * (2⁻¹ * Q)) = Real.exp (-(1 / 2) * Q) * Real.exp (Q / 4) := by
        rw [← Real.exp_add]; congr 1; ring
      rw [h4]
      have := Real.exp_pos (-(1 / 2) * Q)
      nlinarith
    have e2 : ENNReal.ofReal (4 * √2 ^ n) * ENNReal.ofReal ((√2)⁻¹ ^ n) = ENNReal.ofReal 4 := by
      rw [← ENNReal.ofReal_mul (by positivity), mul_assoc, ← mul_pow, mul_inv_cancel₀ h2.ne', one_pow, mul_one]
    calc gaussConst A * ENNReal.ofReal (Real.exp (-(1 / 2) * Q)) * ENNReal.ofReal Q
        = gaussConst A * ENNReal.ofReal (Real.exp (-(1 / 2) * Q) * Q) := by
          rw [mul_assoc, ENNReal.ofReal_mul (Real.exp_pos _).le]
      _ ≤ gaussConst A * ENNReal.ofReal (4 * Real.exp (-(1 / 2) * (2⁻¹ * Q))) := by gcongr
      _ = gaussConst A * (ENNReal.ofReal (4 * √2 ^ n) * ENNReal.ofReal ((√2)⁻¹ ^ n) *
            ENNReal.ofReal (Real.exp (-(1 / 2) * (2⁻¹ * Q)))) := by
          rw [e2, ENNReal.ofReal_mul (by norm_num)]
      _ = _ := by ring
  calc _ ≤ ∫⁻ y, ENNReal.ofReal (4 * √2 ^ n) * propDensity (√2 • A) (fun i j => (√2)⁻¹ * W i j) x y :=
        lintegral_mono key
    _ = _ := by
        rw [lintegral_const_mul _ (measurable_prop _ _ _), lintegral_propDensity hW, mul_one]

/-- expectations under proposals with near factors -/
theorem lintegral_prop_le (h₁ : A₁ * of W₁ = 1) (h₂ : A₂ * of W₂ = 1) {t : ℝ} (ht : 0 < t)
    {B : Matrix (Fin n) (Fin n) ℝ} (hB : B.det ≠ 0)
    (hlo₁ : ∀ w, t ^ 2 * quadForm B w ≤ quadForm A₁ w) (hhi₁ : ∀ w, quadForm A₁ w ≤ t⁻¹ ^ 2 * quadForm B w)
    (hlo₂ : ∀ w, t ^ 2 * quadForm B w ≤ quadForm A₂ w) (hhi₂ : ∀ w, quadForm A₂ w ≤ t⁻¹ ^ 2 * quadForm B w)
    {φ : (Fin n → ℝ) → ℝ≥0∞} (hφ : Measurable φ) (hφ1 : ∀ y, φ y ≤ 1) (x : Fin n → ℝ) :
    (∫⁻ y, propDensity A₁ W₁ x y * φ y) ≤
      (∫⁻ y, propDensity A₂ W₂ x y * φ y) + ENNReal.ofReal (1 - (t ^ 2) ^ n) := by
  have hti : 0 < t⁻¹ := inv_pos.2 ht
  have e : t / t⁻¹ = t ^ 2 := by field_simp
  have hdet : (t • B).det ≠ 0 := by
    rw [det_smul]
    exact mul_ne_zero (pow_ne_zero _ ht.ne') hB
  let Wt : Fin n → Fin n → ℝ := fun i j => (t • B)⁻¹ i j
  have hWt : (t • B) * of Wt = 1 := mul_nonsing_inv _ (isUnit_iff_ne_zero.2 hdet)
  have o₁ := propDensity_ge ht hti hB hWt h₁ hlo₁ hhi₁ x
  have o₂ := propDensity_ge ht hti hB hWt h₂ hlo₂ hhi₂ x
  rw [e] at o₁ o₂
  have hc : Measurable fun y => 1 - φ y := measurable_const.sub hφ
  set q : (Fin n → ℝ) → ℝ≥0∞ := fun y => propDensity (t • B) Wt x y
  have hq : Measurable q := measurable_prop _ _ _
  set κ : ℝ≥0∞ := ENNReal.ofReal ((t ^ 2) ^ n) with hκ
  have low : ∀ {A : Matrix (Fin n) (Fin n) ℝ} {W : Fin n → Fin n → ℝ} {ψ : (Fin n → ℝ) → ℝ≥0∞}, Measurable ψ →
      (∀ y, κ * q y ≤ propDensity A W x y) → κ * ∫⁻ y, q y * ψ y ≤ ∫⁻ y, propDensity A W x y * ψ y := by
    intro A W ψ hψ h
    refine (lintegral_const_mul _ (hq.mul hψ)).symm.trans_le (lintegral_mono fun y => ?_)
    rw [Pi.mul_apply, ← mul_assoc]
    gcongr
    exact h y
  have split : ∀ {f : (Fin n → ℝ) → ℝ≥0∞}, Measurable f → (∫⁻ y, f y = 1) →
      (∫⁻ y, f y * φ y) + (∫⁻ y, f y * (1 - φ y)) = 1 := by
    intro f hf h1
    refine (lintegral_add_left (hf.mul hφ) _).symm.trans (Eq.trans (lintegral_congr fun y => ?_) h1)
    rw [Pi.mul_apply, ← mul_add, add_tsub_cancel_of_le (hφ1 y), mul_one]
  have s₁ := split (measurable_prop A₁ W₁ x) (lintegral_propDensity h₁ x)
  have sq := split hq (lintegral_propDensity hWt x)
  have b₁ := low hc o₁
  have b₂ := low hφ o₂
  have key : (∫⁻ y, propDensity A₁ W₁ x y * φ y) + κ ≤ (∫⁻ y, propDensity A₂ W₂ x y * φ y) + 1 := by
    calc _ = (∫⁻ y, propDensity A₁ W₁ x y * φ y) + (κ * (∫⁻ y, q y * φ y) + κ * (∫⁻ y, q y * (1 - φ y))) := by
          rw [← mul_add, sq, mul_one]
      _ ≤ (∫⁻ y, propDensity A₁ W₁ x y * φ y) + ((∫⁻ y, propDensity A₂ W₂ x y * φ y) +
            (∫⁻ y, propDensity A₁ W₁ x y * (1 - φ y))) := by gcongr
      _ = (∫⁻ y, propDensity A₂ W₂ x y * φ y) + ((∫⁻ y, propDensity A₁ W₁ x y * φ y) +
            (∫⁻ y, propDensity A₁ W₁ x y * (1 - φ y))) := by ring
      _ = _ := by rw [s₁]
  have h1 : (1 : ℝ≥0∞) ≤ κ + ENNReal.ofReal (1 - (t ^ 2) ^ n) := by
    rw [hκ]
    refine le_trans ?_ ENNReal.ofReal_add_le
    simp
  have : (∫⁻ y, propDensity A₁ W₁ x y * φ y) + κ ≤
      ((∫⁻ y, propDensity A₂ W₂ x y * φ y) + ENNReal.ofReal (1 - (t ^ 2) ^ n)) + κ := by
    refine key.trans ?_
    rw [add_assoc, add_comm (ENNReal.ofReal _) κ]
    gcongr
  exact (ENNReal.add_le_add_iff_right ENNReal.ofReal_ne_top).1 this

end gauss

/-- the acceptance probability as a function of the logarithm of the ratio -/
theorem min_exp_near {ρ : ℝ} (hρ : 0 ≤ ρ) (a b : ℝ) :
    |min 1 (ρ * Real.exp a) - min 1 (ρ * Real.exp b)| ≤ |a - b| := by
  have key : ∀ {a b : ℝ}, a ≤ b → |min 1 (ρ * Real.exp a) - min 1 (ρ * Real.exp b)| ≤ |a - b| := by
    intro a b hab
    have h1 : min 1 (ρ * Real.exp a) ≤ min 1 (ρ * Real.exp b) :=
      min_le_min_left _ (mul_le_mul_of_nonneg_left (Real.exp_le_exp.2 hab) hρ)
    rw [abs_of_nonpos (by linarith), abs_of_nonpos (by linarith)]
    set m := min 1 (ρ * Real.exp b) with hm
    have h2 : m ≤ 1 := min_le_left _ _
    have h0 : 0 ≤ m := le_min one_pos.le (mul_nonneg hρ (Real.exp_pos _).le)
    have h3 : m * Real.exp (a - b) ≤ min 1 (ρ * Real.exp a) := by
      refine le_min ?_ ?_
      · exact mul_le_one₀ h2 (Real.exp_pos _).le (Real.exp_le_one_iff.2 (by linarith))
      · have : m ≤ ρ * Real.exp b := min_le_right _ _
        calc m * Real.exp (a - b) ≤ ρ * Real.exp b * Real.exp (a - b) := by gcongr
          _ = ρ * Real.exp a := by rw [mul_assoc, ← Real.exp_add]; congr 2; ring
    have h4 := Real.add_one_le_exp (a - b)
    nlinarith
  rcases le_total a b with h | h
  · exact key h
  · rw [abs_sub_comm, abs_sub_comm a b]; exact key h

section step
variable {n : ℕ} {lp : (Fin n → ℝ) → Option ℝ}

/-- the acceptance probability of the second stage -/
theorem alphaAt_second (lp : (Fin n → ℝ) → Option ℝ) (x y z : Fin n → ℝ) : ∃ ρ : ℝ, 0 ≤ ρ ∧
    ∀ W : ℕ → Fin n → Fin n → ℝ, alphaAt W lp 1 (update (update (fun _ => x) 1 y) 2 z) =
      min 1 (ρ * Real.exp (-(1 / 2) * invQuad (W 0) (y - z) + 1 / 2 * invQuad (W 0) (y - x))) := by
  set a := min 1 ((pointAt lp y).density / (pointAt lp x).density)
  set b := min 1 ((pointAt lp y).density / (pointAt lp z).density)
  refine ⟨(pointAt lp z).density * (1 - b) / ((pointAt lp x).density * (1 - a)), ?_, fun W => ?_⟩
  · have ha : a ≤ 1 := min_le_left _ _
    have hb : b ≤ 1 := min_le_left _ _
    exact div_nonneg (mul_nonneg (Point.density_nonneg _) (by linarith))
      (mul_nonneg (Point.density_nonneg _) (by linarith))
  · have hg : ∀ k (u v : Fin n → ℝ), gauss (W k) u v ≠ 0 := fun k u v => by
      unfold gauss; exact (Real.exp_pos _).ne'
    have ha : drAlpha W 0 (fun i => pointAt lp (update (update (fun _ => x) 1 y) 2 z i)) = a := by
      rw [drAlpha]
      simp [pointAt, update_of_ne, a]
      rw [gauss_symm (W 0) y x, mul_div_mul_right _ _ (hg 0 x y)]
    have hb : drAlpha W 0 (fun i => pointAt lp (update (update (fun _ => x) 1 y) 2 z (2 - i))) = b := by
      rw [drAlpha]
      simp [pointAt, update_of_ne, b]
      rw [gauss_symm (W 0) y z, mul_div_mul_right _ _ (hg 0 z y)]
    unfold alphaAt
    rw [drAlpha]
    simp only [Fin.prod_univ_one, Fin.val_zero, ha, Nat.reduceAdd, hb, prod_range_succ, range_zero, prod_empty, one_mul]
    simp only [pointAt, update_self, ne_eq, not_false_eq_true, update_of_ne, Nat.sub_zero,
      Nat.sub_self, OfNat.one_ne_ofNat, OfNat.zero_ne_ofNat, zero_ne_one]
    congr 1
    rw [gauss_symm (W 1) z x, gauss_invQuad (W 0) z y, gauss_invQuad (W 0) x y, Real.exp_add,
      show (1 / 2 * invQuad (W 0) (y - x)) = -(-(1 / 2) * invQuad (W 0) (y - x)) by ring, Real.exp_neg]
    have h1 := hg 1 x z
    have h2 := (Real.exp_pos (-(1 / 2) * invQuad (W 0) (y - x))).ne'
    generalize Real.exp (-(1 / 2) * invQuad (W 0) (y - x)) = e at h2
    generalize Real.exp (-(1 / 2) * invQuad (W 0) (y - z)) = e'
    generalize gauss (W 1) x z = k at h1
    by_cases h3 : (Point.mk x (lp x)).density = 0
    · simp [h3]
    by_cases h4 : 1 - a = 0
    · simp [h4]
    field_simp

theorem mix_le {α β : ℝ} (hβ0 : 0 ≤ β) (hβ1 : β ≤ 1) {a b : ℝ≥0∞} (ha : a ≤ 1)
    (hb : b ≤ 1) {d : ℝ} (hd : |α - β| ≤ d) :
    ENNReal.ofReal α * a + ENNReal.ofReal (1 - α) * b ≤
      ENNReal.ofReal β * a + ENNReal.ofReal (1 - β) * b + ENNReal.ofReal d := by
  rcases le_total β α with h | h
  · have e : ENNReal.ofReal α = ENNReal.ofReal β + ENNReal.ofReal (α - β) := by
      rw [← ENNReal.ofReal_add hβ0 (by linarith)]; congr 1; ring
    have h1 : ENNReal.ofReal (α - β) * a ≤ ENNReal.ofReal d :=
      (mul_le_of_le_one_right zero_le ha).trans (ENNReal.ofReal_le_ofReal ((le_abs_self _).trans hd))
    calc _ = ENNReal.ofReal β * a + ENNReal.ofReal (1 - α) * b + ENNReal.ofReal (α - β) * a := by rw [e]; ring
      _ ≤ _ := by gcongr
  · have e : ENNReal.ofReal (1 - α) = ENNReal.ofReal (1 - β) + ENNReal.ofReal (β - α) := by
      rw [← ENNReal.ofReal_add (by linarith) (by linarith)]; congr 1; ring
    have h1 : ENNReal.ofReal (β - α) * b ≤ ENNReal.ofReal d :=
      (mul_le_of_le_one_right zero_le hb).trans (ENNReal.ofReal_le_ofReal ((le_abs_self _).trans (by rwa [abs_sub_comm])))
    calc _ = ENNReal.ofReal α * a + ENNReal.ofReal (1 - β) * b + ENNReal.ofReal (β - α) * b := by rw [e]; ring
      _ ≤ _ := by gcongr

theorem mix_le_one {α : ℝ} (hα0 : 0 ≤ α) (hα1 : α ≤ 1) {a b : ℝ≥0∞} (ha : a ≤ 1) (hb : b ≤ 1) :
    ENNReal.ofReal α * a + ENNReal.ofReal (1 - α) * b ≤ 1 := by
  calc _ ≤ ENNReal.ofReal α * 1 + ENNReal.ofReal (1 - α) * 1 := by gcongr
    _ = 1 := by rw [mul_one, mul_one, ← ENNReal.ofReal_add hα0 (by linarith)]; simp

/-- **Near factors, near transitions: two stages.** -/
theorem two_stage_near (hd : Measurable fun x => (pointAt lp x).density) {A₁ A₂ : ℕ → Matrix (Fin n) (Fin n) ℝ}
    {W₁ W₂ : ℕ → Fin n → Fin n → ℝ} (h₁ : ∀ k < 2, A₁ k * of (W₁ k) = 1) (h₂ : ∀ k < 2, A₂ k * of (W₂ k) = 1)
    {t : ℝ} (ht : 0 < t) (ht1 : t ≤ 1) (hlo : ∀ k < 2, ∀ w, t ^ 2 * quadForm (A₁ k) w ≤ quadForm (A₂ k) w)
    (hhi : ∀ k < 2, ∀ w, quadForm (A₂ k) w ≤ t⁻¹ ^ 2 * quadForm (A₁ k) w) {l : ℝ} (hl0 : 0 ≤ l)
    (hl : ∀ d, invQuad (W₁ 0) d ≤ l * invQuad (W₁ 1) d) {g : (Fin n → ℝ) → ℝ≥0∞} (hg : Measurable g)
    (hg1 : ∀ y, g y ≤ 1) (x : Fin n → ℝ) {δ : ℝ}
    (hδ : δ = 2 * (1 - (t ^ 2) ^ n) + (t⁻¹ ^ 2 - 1) * (6 + 4 * l) * √2 ^ n) :
    expectAfter A₁ W₁ lp g 2 0 (fun _ => x) ≤ expectAfter A₂ W₂ lp g 2 0 (fun _ => x) + ENNReal.ofReal δ ∧
    expectAfter A₂ W₂ lp g 2 0 (fun _ => x) ≤ expectAfter A₁ W₁ lp g 2 0 (fun _ => x) + ENNReal.ofReal δ := by
  have hκ1 : (t ^ 2) ^ n ≤ 1 := pow_le_one₀ (by positivity) (pow_le_one₀ ht.le ht1)
  have hu : 0 ≤ t⁻¹ ^ 2 - 1 := by
    have := one_le_pow₀ ((one_le_inv₀ ht).2 ht1) (n := 2)
    linarith
  have hq0 : ∀ A : Matrix (Fin n) (Fin n) ℝ, ∀ w, 0 ≤ quadForm A w := fun A w => dotProduct_self_nonneg' _
  have hdet : ∀ k < 2, (A₁ k).det ≠ 0 := fun k hk h0 => by
    have := congrArg det (h₁ k hk)
    rw [det_mul, h0, zero_mul, det_one] at this
    exact zero_ne_one this
  have self_lo : ∀ k w, t ^ 2 * quadForm (A₁ k) w ≤ quadForm (A₁ k) w := fun k w =>
    mul_le_of_le_one_left (hq0 _ w) (pow_le_one₀ ht.le ht1)
  have self_hi : ∀ k w, quadForm (A₁ k) w ≤ t⁻¹ ^ 2 * quadForm (A₁ k) w := fun k w =>
    le_mul_of_one_le_left (hq0 _ w) (one_le_pow₀ ((one_le_inv₀ ht).2 ht1))
  set θ := ENNReal.ofReal (1 - (t ^ 2) ^ n) with hθ
  -- changing the proposal
  have p12 : ∀ k < 2, ∀ {φ : (Fin n → ℝ) → ℝ≥0∞}, Measurable φ → (∀ y, φ y ≤ 1) →
      ∫⁻ y, propDensity (A₁ k) (W₁ k) x y * φ y ≤ (∫⁻ y, propDensity (A₂ k) (W₂ k) x y * φ y) + θ := fun k hk φ hφ hφ1 =>
    lintegral_prop_le (h₁ k hk) (h₂ k hk) ht (hdet k hk) (self_lo k) (self_hi k) (hlo k hk) (hhi k hk) hφ hφ1 x
  have p21 : ∀ k < 2, ∀ {φ : (Fin n → ℝ) → ℝ≥0∞}, Measurable φ → (∀ y, φ y ≤ 1) →
      ∫⁻ y, propDensity (A₂ k) (W₂ k) x y * φ y ≤ (∫⁻ y, propDensity (A₁ k) (W₁ k) x y * φ y) + θ := fun k hk φ hφ hφ1 =>
    lintegral_prop_le (h₂ k hk) (h₁ k hk) ht (hdet k hk) (hlo k hk) (hhi k hk) (self_lo k) (self_hi k) hφ hφ1 x
  -- the second stage
  let α : (ℕ → Fin n → Fin n → ℝ) → (Fin n → ℝ) → (Fin n → ℝ) → ℝ := fun W y z =>
    alphaAt W lp 1 (update (update (fun _ => x) 1 y) 2 z)
  let h : (ℕ → Fin n → Fin n → ℝ) → (Fin n → ℝ) → (Fin n → ℝ) → ℝ≥0∞ := fun W y z =>
    ENNReal.ofReal (α W y z) * g z + ENNReal.ofReal (1 - α W y z) * g x
  have hα0 : ∀ W y z, 0 ≤ α W y z := fun W y z => alphaAt_nonneg _ _
  have hα1 : ∀ W y z, α W y z ≤ 1 := fun W y z => alphaAt_le_one _ _
  have hαm : ∀ W y, Measurable (α W y) := fun W y =>
    (measurable_alphaAt hd 1).comp ((measurable_update_path 2).comp (measurable_const.prodMk measurable_id))
  have hm : ∀ W y, Measurable (h W y) := fun W y =>
    ((hαm W y).ennreal_ofReal.mul hg).add ((measurable_const.sub (hαm W y)).ennreal_ofReal.mul_const _)
  have hle1 : ∀ W y z, h W y z ≤ 1 := fun W y z => mix_le_one (hα0 _ _ _) (hα1 _ _ _) (hg1 _) (hg1 _)
  set u := t⁻¹ ^ 2 - 1 with hudef
  let b : (Fin n → ℝ) → (Fin n → ℝ) → ℝ := fun y z =>
    u / 2 * (3 * invQuad (W₁ 0) (y - x)) + u * l * invQuad (W₁ 1) (z - x)
  have hαα : ∀ y z, |α W₁ y z - α W₂ y z| ≤ b y z := by
    intro y z
    obtain ⟨ρ, hρ, hα⟩ := alphaAt_second lp x y z
    simp only [α]
    rw [hα W₁, hα W₂]
    refine (min_exp_near hρ _ _).trans ?_
    have n1 := invQuad_near (h₁ 0 (by omega)) (h₂ 0 (by omega)) ht ht1 (hlo 0 (by omega)) (hhi 0 (by omega)) (y - z)
    have n2 := invQuad_near (h₁ 0 (by omega)) (h₂ 0 (by omega)) ht ht1 (hlo 0 (by omega)) (hhi 0 (by omega)) (y - x)
    have e : -(1 / 2) * invQuad (W₁ 0) (y - z) + 1 / 2 * invQuad (W₁ 0) (y - x) -
        (-(1 / 2) * invQuad (W₂ 0) (y - z) + 1 / 2 * invQuad (W₂ 0) (y - x)) =
        1 / 2 * (invQuad (W₂ 0) (y - z) - invQuad (W₁ 0) (y - z)) -
        1 / 2 * (invQuad (W₂ 0) (y - x) - invQuad (W₁ 0) (y - x)) := by ring
    rw [e]
    refine (abs_sub _ _).trans ?_
    rw [abs_mul, abs_mul, abs_of_pos (by norm_num : (0 : ℝ) < 1 / 2)]
    have n3 := invQuad_sub_le (W₁ 0) (y - x) (z - x)
    rw [sub_sub_sub_cancel_right] at n3
    have n4 := hl (z - x)
    have n5 : u * invQuad (W₁ 0) (y - z) ≤ u * (2 * invQuad (W₁ 0) (y - x) + 2 * (l * invQuad (W₁ 1) (z - x))) :=
      mul_le_mul_of_nonneg_left (by linarith) hu
    simp only [b]
    nlinarith
  have hh12 : ∀ y z, h W₁ y z ≤ h W₂ y z + ENNReal.ofReal (b y z) := fun y z =>
    mix_le (hα0 _ _ _) (hα1 _ _ _) (hg1 _) (hg1 _) (hαα y z)
  have hh21 : ∀ y z, h W₂ y z ≤ h W₁ y z + ENNReal.ofReal (b y z) := fun y z =>
    mix_le (hα0 _ _ _) (hα1 _ _ _) (hg1 _) (hg1 _) (by rw [abs_sub_comm]; exact hαα y z)
  set c := 4 * √2 ^ n with hc
  have hc0 : 0 ≤ c := by positivity
  let J : (Fin n → ℝ) → ℝ≥0∞ := fun y =>
    ENNReal.ofReal (u / 2 * 3) * ENNReal.ofReal (invQuad (W₁ 0) (y - x)) + ENNReal.ofReal (u * l * c)
  have hJ : ∀ y, ∫⁻ z, propDensity (A₁ 1) (W₁ 1) x z * ENNReal.ofReal (b y z) ≤ J y := by
    intro y
    have hQm : Measurable fun z => invQuad (W₁ 1) (z - x) := measurable_invQuad _ (measurable_id.sub_const x)
    have e : ∀ z, propDensity (A₁ 1) (W₁ 1) x z * ENNReal.ofReal (b y z) =
        ENNReal.ofReal (u / 2 * 3) * ENNReal.ofReal (invQuad (W₁ 0) (y - x)) * propDensity (A₁ 1) (W₁ 1) x z +
        ENNReal.ofReal (u * l) * (propDensity (A₁ 1) (W₁ 1) x z * ENNReal.ofReal (invQuad (W₁ 1) (z - x))) := by
      intro z
      have e1 : ENNReal.ofReal (b y z) = ENNReal.ofReal (u / 2 * 3) * ENNReal.ofReal (invQuad (W₁ 0) (y - x)) +
          ENNReal.ofReal (u * l) * ENNReal.ofReal (invQuad (W₁ 1) (z - x)) := by
        rw [← ENNReal.ofReal_mul (by positivity), ← ENNReal.ofReal_mul (by positivity),
          ← ENNReal.ofReal_add (mul_nonneg (by positivity) (invQuad_nonneg _ _))
            (mul_nonneg (by positivity) (invQuad_nonneg _ _))]
        congr 1
        simp only [b]
        ring
      rw [e1]
      ring
    simp only [e]
    have hpm := measurable_prop (A₁ 1) (W₁ 1) x
    have hpQ : Measurable fun z => propDensity (A₁ 1) (W₁ 1) x z * ENNReal.ofReal (invQuad (W₁ 1) (z - x)) :=
      hpm.mul hQm.ennreal_ofReal
    rw [lintegral_add_left (hpm.const_mul _), lintegral_const_mul _ hpm, lintegral_propDensity (h₁ 1 (by omega)),
      mul_one, lintegral_const_mul _ hpQ]
    simp only [J]
    rw [ENNReal.ofReal_mul (by positivity : 0 ≤ u * l)]
    gcongr
    exact lintegral_invQuad (h₁ 1 (by omega)) x
  let I : (ℕ → Matrix (Fin n) (Fin n) ℝ) → (ℕ → Fin n → Fin n → ℝ) → (Fin n → ℝ) → ℝ≥0∞ := fun A W y =>
    ∫⁻ z, propDensity (A 1) (W 1) x z * h W y z
  have hI : ∀ A W y, expectAfter A W lp g 1 1 (update (fun _ => x) 1 y) = I A W y := by
    intro A W y
    rw [expectAfter]
    simp only [expectAfter, I, h, α]
    refine lintegral_congr fun z => ?_
    rw [update_of_ne (by omega), update_of_ne (by omega), update_of_ne (by omega)]
  have hI1 : ∀ A W, (A 1 * of (W 1) = 1) → ∀ y, I A W y ≤ 1 := by
    intro A W hA y
    calc I A W y ≤ ∫⁻ z, propDensity (A 1) (W 1) x z * 1 := by
          refine lintegral_mono fun z => ?_
          gcongr
          exact hle1 _ _ _
      _ = 1 := by simp only [mul_one]; exact lintegral_propDensity hA x
  have hbm : ∀ y, Measurable fun z => ENNReal.ofReal (b y z) := fun y => by
    have : Measurable fun z => invQuad (W₁ 1) (z - x) := measurable_invQuad _ (measurable_id.sub_const x)
    exact (measurable_const.add (this.const_mul _)).ennreal_ofReal
  have hadd : ∀ W y, ∫⁻ z, propDensity (A₁ 1) (W₁ 1) x z * (h W y z + ENNReal.ofReal (b y z)) ≤
      (∫⁻ z, propDensity (A₁ 1) (W₁ 1) x z * h W y z) + J y := by
    intro W y
    simp only [mul_add]
    have hpm : Measurable fun z => propDensity (A₁ 1) (W₁ 1) x z * h W y z := (measurable_prop _ _ _).mul (hm W y)
    rw [lintegral_add_left hpm]
    gcongr
    exact hJ y
  have I12 : ∀ y, I A₁ W₁ y ≤ I A₂ W₂ y + (θ + J y) := by
    intro y
    calc I A₁ W₁ y ≤ ∫⁻ z, propDensity (A₁ 1) (W₁ 1) x z * (h W₂ y z + ENNReal.ofReal (b y z)) := by
          refine lintegral_mono fun z => ?_
          gcongr
          exact hh12 y z
      _ ≤ (∫⁻ z, propDensity (A₁ 1) (W₁ 1) x z * h W₂ y z) + J y := hadd W₂ y
      _ ≤ (I A₂ W₂ y + θ) + J y := by gcongr; exact p12 1 (by omega) (hm W₂ y) (hle1 W₂ y)
      _ = _ := by ring
  have I21 : ∀ y, I A₂ W₂ y ≤ I A₁ W₁ y + (θ + J y) := by
    intro y
    calc I A₂ W₂ y ≤ (∫⁻ z, propDensity (A₁ 1) (W₁ 1) x z * h W₂ y z) + θ :=
          p21 1 (by omega) (hm W₂ y) (hle1 W₂ y)
      _ ≤ (∫⁻ z, propDensity (A₁ 1) (W₁ 1) x z * (h W₁ y z + ENNReal.ofReal (b y z))) + θ := by
          gcongr with z
          exact hh21 y z
      _ ≤ (I A₁ W₁ y + J y) + θ := by gcongr; exact hadd W₁ y
      _ = _ := by ring
  -- the first stage
  set a : (Fin n → ℝ) → ℝ := fun y => min 1 ((pointAt lp y).density / (pointAt lp x).density) with ha
  have ha0 : ∀ y, 0 ≤ a y := fun y => le_min one_pos.le (div_nonneg (Point.density_nonneg _) (Point.density_nonneg _))
  have ha1 : ∀ y, a y ≤ 1 := fun y => min_le_left _ _
  have ham : Measurable a := measurable_const.min (hd.div_const _)
  let φ : (ℕ → Matrix (Fin n) (Fin n) ℝ) → (ℕ → Fin n → Fin n → ℝ) → (Fin n → ℝ) → ℝ≥0∞ := fun A W y =>
    ENNReal.ofReal (a y) * g y + ENNReal.ofReal (1 - a y) * I A W y
  have hE : ∀ A W, expectAfter A W lp g 2 0 (fun _ => x) = ∫⁻ y, propDensity (A 0) (W 0) x y * φ A W y := by
    intro A W
    rw [expectAfter]
    simp only [alphaAt_first, φ, zero_add, hI]
    rfl
  have hIm : ∀ A W, Measurable (I A W) := by
    intro A W
    have := (measurable_expectAfter (A := A) (W := W) hd hg 1 1).comp
      ((measurable_update_path 1).comp ((measurable_const (a := fun _ : ℕ => x)).prodMk (measurable_id (α := Fin n → ℝ))))
    exact (funext fun y => (hI A W y).symm) ▸ this
  have hφm : ∀ A W, Measurable (φ A W) := fun A W =>
    (ham.ennreal_ofReal.mul hg).add ((measurable_const.sub ham).ennreal_ofReal.mul (hIm A W))
  have hφ1 : ∀ A W, (A 1 * of (W 1) = 1) → ∀ y, φ A W y ≤ 1 := fun A W hA y =>
    mix_le_one (ha0 y) (ha1 y) (hg1 y) (hI1 A W hA y)
  have hφφ : ∀ {A A' W W'}, (∀ y, I A W y ≤ I A' W' y + (θ + J y)) → ∀ y, φ A W y ≤ φ A' W' y + (θ + J y) := by
    intro A A' W W' hI y
    calc φ A W y ≤ ENNReal.ofReal (a y) * g y + ENNReal.ofReal (1 - a y) * (I A' W' y + (θ + J y)) := by
          simp only [φ]; gcongr; exact hI y
      _ = φ A' W' y + ENNReal.ofReal (1 - a y) * (θ + J y) := by simp only [φ]; ring
      _ ≤ _ := by
          gcongr
          refine mul_le_of_le_one_left zero_le ?_
          rw [← ENNReal.ofReal_one]
          exact ENNReal.ofReal_le_ofReal (by linarith [ha0 y])
  have hJm : Measurable J :=
    (((measurable_invQuad (W₁ 0) (measurable_id.sub_const x)).ennreal_ofReal).const_mul _).add measurable_const
  have hJJ : ∫⁻ y, propDensity (A₁ 0) (W₁ 0) x y * (θ + J y) ≤
      θ + (ENNReal.ofReal (u / 2 * 3) * ENNReal.ofReal c + ENNReal.ofReal (u * l * c)) := by
    have hpm := measurable_prop (A₁ 0) (W₁ 0) x
    have hQm : Measurable fun z => invQuad (W₁ 0) (z - x) := measurable_invQuad _ (measurable_id.sub_const x)
    have e : ∀ y, propDensity (A₁ 0) (W₁ 0) x y * (θ + J y) = (θ + ENNReal.ofReal (u * l * c)) * propDensity (A₁ 0) (W₁ 0) x y +
        ENNReal.ofReal (u / 2 * 3) * (propDensity (A₁ 0) (W₁ 0) x y * ENNReal.ofReal (invQuad (W₁ 0) (y - x))) := by
      intro y; simp only [J]; ring
    simp only [e]
    have hpQ : Measurable fun z => propDensity (A₁ 0) (W₁ 0) x z * ENNReal.ofReal (invQuad (W₁ 0) (z - x)) :=
      hpm.mul hQm.ennreal_ofReal
    rw [lintegral_add_left (hpm.const_mul _), lintegral_const_mul _ hpm, lintegral_propDensity (h₁ 0 (by omega)),
      mul_one, lintegral_const_mul _ hpQ]
    calc _ ≤ θ + ENNReal.ofReal (u * l * c) + ENNReal.ofReal (u / 2 * 3) * ENNReal.ofReal c := by
          gcongr
          exact lintegral_invQuad (h₁ 0 (by omega)) x
      _ = _ := by ring
  have hsum : θ + (ENNReal.ofReal (u / 2 * 3) * ENNReal.ofReal c + ENNReal.ofReal (u * l * c)) + θ = ENNReal.ofReal δ := by
    rw [hθ, ← ENNReal.ofReal_mul (by positivity), ← ENNReal.ofReal_add (by positivity) (by positivity),
      ← ENNReal.ofReal_add (by linarith) (by positivity), ← ENNReal.ofReal_add _ (by linarith), hδ, hc]
    · congr 1; ring
    · have : 0 ≤ u / 2 * 3 * c + u * l * c := by positivity
      linarith
  have hstep : ∀ A W, ∫⁻ y, propDensity (A₁ 0) (W₁ 0) x y * (φ A W y + (θ + J y)) ≤
      (∫⁻ y, propDensity (A₁ 0) (W₁ 0) x y * φ A W y) +
        (θ + (ENNReal.ofReal (u / 2 * 3) * ENNReal.ofReal c + ENNReal.ofReal (u * l * c))) := by
    intro A W
    simp only [mul_add (propDensity _ _ _ _) (φ _ _ _)]
    have hpm : Measurable fun y => propDensity (A₁ 0) (W₁ 0) x y * φ A W y := (measurable_prop _ _ _).mul (hφm A W)
    rw [lintegral_add_left hpm]
    gcongr
  rw [hE, hE, ← hsum]
  constructor
  · calc _ ≤ ∫⁻ y, propDensity (A₁ 0) (W₁ 0) x y * (φ A₂ W₂ y + (θ + J y)) := by
          refine lintegral_mono fun y => ?_
          gcongr
          exact hφφ I12 y
      _ ≤ (∫⁻ y, propDensity (A₁ 0) (W₁ 0) x y * φ A₂ W₂ y) +
          (θ + (ENNReal.ofReal (u / 2 * 3) * ENNReal.ofReal c + ENNReal.ofReal (u * l * c))) := hstep A₂ W₂
      _ ≤ ((∫⁻ y, propDensity (A₂ 0) (W₂ 0) x y * φ A₂ W₂ y) + θ) +
          (θ + (ENNReal.ofReal (u / 2 * 3) * ENNReal.ofReal c + ENNReal.ofReal (u * l * c))) := by
          gcongr
          exact p12 0 (by omega) (hφm A₂ W₂) (hφ1 A₂ W₂ (h₂ 1 (by omega)))
      _ = _ := by ring
  · calc _ ≤ (∫⁻ y, propDensity (A₁ 0) (W₁ 0) x y * φ A₂ W₂ y) + θ :=
          p21 0 (by omega) (hφm A₂ W₂) (hφ1 A₂ W₂ (h₂ 1 (by omega)))
      _ ≤ (∫⁻ y, propDensity (A₁ 0) (W₁ 0) x y * (φ A₁ W₁ y + (θ + J y))) + θ := by
          gcongr with y
          exact hφφ I21 y
      _ ≤ ((∫⁻ y, propDensity (A₁ 0) (W₁ 0) x y * φ A₁ W₁ y) +
          (θ + (ENNReal.ofReal (u / 2 * 3) * ENNReal.ofReal c + ENNReal.ofReal (u * l * c)))) + θ := by
          gcongr
          exact hstep A₁ W₁
      _ = _ := by ring

end step

section factor
variable {n : ℕ} {σ : Type} [MeasurableSpace σ] {μ : Measure σ} [IsProbabilityMeasure μ] {G : Rng σ XR}
  (D : IdealRng G n μ) {lp : (Fin n → ℝ) → Option ℝ} {ds : List ℝ} {ntry : ℤ}

theorem stageFactor_first (ds : List ℝ) (ntry : ℤ) (R : Fin n → Fin n → ℝ) : stageFactor ds ntry R 0 = R := by
  funext i j
  simp [stageFactor, stageScale]

theorem stageInverse_first (ds : List ℝ) (ntry : ℤ) (R : Fin n → Fin n → ℝ) : stageInverse ds ntry R 0 = invOf R := by
  unfold stageInverse invOf
  rw [stageFactor_first]

/-- near covariances, near transitions, for one or two stages; one bound for all targets -/
theorem factorMove_near_all (h0 : ∀ d ∈ ds, d ≠ 0) (hnt : ntry ≤ 2) :
    ∃ C : ℝ, 0 ≤ C ∧ ∀ lp : (Fin n → ℝ) → Option ℝ, (Measurable fun x => (pointAt lp x).density) → ∀ R₁ R₂ : Fin n → Fin n → ℝ, (of R₁).det ≠ 0 → (of R₂).det ≠ 0 → ∀ t : ℝ, 0 < t → t ≤ 1 →
      (∀ w, t ^ 2 * quadForm (of R₁) w ≤ quadForm (of R₂) w) →
      (∀ w, quadForm (of R₂) w ≤ t⁻¹ ^ 2 * quadForm (of R₁) w) →
      ∀ g : (Fin n → ℝ) → ℝ≥0∞, Measurable g → (∀ y, g y ≤ 1) → ∀ x : Fin n → ℝ,
      expect μ (factorMove D lp ds ntry R₁) 1 g x ≤ expect μ (factorMove D lp ds ntry R₂) 1 g x +
        ENNReal.ofReal (2 * (1 - (t ^ 2) ^ n) + (t⁻¹ ^ 2 - 1) * C) ∧
      expect μ (factorMove D lp ds ntry R₂) 1 g x ≤ expect μ (factorMove D lp ds ntry R₁) 1 g x +
        ENNReal.ofReal (2 * (1 - (t ^ 2) ^ n) + (t⁻¹ ^ 2 - 1) * C) := by
  rcases (by omega : ntry ≤ 1 ∨ ntry = 2) with h | rfl
  · refine ⟨0, le_rfl, fun lp hd R₁ R₂ h₁ h₂ t ht ht1 hlo hhi g hg hg1 x => ?_⟩
    have hκ1 : (t ^ 2) ^ n ≤ 1 := pow_le_one₀ (by positivity) (pow_le_one₀ ht.le ht1)
    obtain ⟨c1, c2⟩ := expect_close D (ds := ds) hd h0 h h₁ h₂ ht ht1 hlo hhi hg hg1 x
    have conv : ∀ {a b : ℝ≥0∞}, a + ENNReal.ofReal ((t ^ 2) ^ n) ≤ b + 1 →
        a ≤ b + ENNReal.ofReal (2 * (1 - (t ^ 2) ^ n) + (t⁻¹ ^ 2 - 1) * 0) := by
      intro a b hab
      have h1 : (1 : ℝ≥0∞) ≤ ENNReal.ofReal (2 * (1 - (t ^ 2) ^ n) + (t⁻¹ ^ 2 - 1) * 0) + ENNReal.ofReal ((t ^ 2) ^ n) := by
        rw [← ENNReal.ofReal_add (by rw [mul_zero, add_zero]; linarith) (by positivity), ← ENNReal.ofReal_one]
        exact ENNReal.ofReal_le_ofReal (by linarith)
      refine (ENNReal.add_le_add_iff_right (ENNReal.ofReal_ne_top (r := (t ^ 2) ^ n))).1 (hab.trans ?_)
      rw [add_assoc]
      gcongr
    exact ⟨conv c1, conv c2⟩
  · set s := stageScale ds 1 with hs
    have hs0 : s ≠ 0 := stageScale_ne_zero h0 1
    refine ⟨(6 + 4 * (s⁻¹ ^ 2)) * √2 ^ n, by positivity, fun lp hd R₁ R₂ h₁ h₂ t ht ht1 hlo hhi g hg hg1 x => ?_⟩
    have hof : ∀ R : Fin n → Fin n → ℝ, ∀ k, of (stageFactor ds 2 R k) = (stageScale ds k)⁻¹ • of R := by
      intro R k
      have := of_stageFactor ds 2 (of R) k
      rw [if_pos (by norm_num)] at this
      exact this
    have hq : ∀ R : Fin n → Fin n → ℝ, ∀ k w, quadForm (of (stageFactor ds 2 R k)) w =
        (stageScale ds k)⁻¹ ^ 2 * quadForm (of R) w := fun R k w => by rw [hof, quadForm_smul]
    have hinv : stageInverse ds 2 R₁ 1 = fun i j => s * invOf R₁ i j := by
      have e : of (stageInverse ds 2 R₁ 1) = s • of (invOf R₁) := by
        have h3 := stageFactor_inverse h0 2 h₁ 1
        have h4 : of (stageFactor ds 2 R₁ 1) * (s • of (invOf R₁)) = 1 := by
          rw [hof, smul_mul_smul_comm, inv_mul_cancel₀ hs0, mul_invOf h₁, one_smul]
        have h5 := mul_eq_one_comm.1 h4
        calc of (stageInverse ds 2 R₁ 1) = (s • of (invOf R₁)) * of (stageFactor ds 2 R₁ 1) * of (stageInverse ds 2 R₁ 1) := by
              rw [h5, one_mul]
          _ = _ := by rw [mul_assoc, h3, mul_one]
      funext i j
      have := congrFun (congrFun e i) j
      simpa using this
    have hexp : ∀ R : Fin n → Fin n → ℝ, (of R).det ≠ 0 → expect μ (factorMove D lp ds 2 R) 1 g x =
        expectAfter (fun k => of (stageFactor ds 2 R k)) (stageInverse ds 2 R) lp g 2 0 (fun _ => x) := by
      intro R hR
      unfold expect
      simp only [iterate_one, factorMove_of_unit D ds 2 hR]
      have e := lintegral_moveFrom D (A := fun k => of (stageFactor ds 2 R k)) (W := stageInverse ds 2 R) hd
        (K := 2) (fun k _ => stageFactor_inverse h0 2 hR k) (g := fun p => g p.1) (hg.comp measurable_fst) 2 0
        (by omega) (fun _ => x)
      simp only [lintegral_const, measure_univ, mul_one] at e
      exact e
    rw [hexp R₁ h₁, hexp R₂ h₂]
    refine two_stage_near hd (fun k _ => stageFactor_inverse h0 2 h₁ k) (fun k _ => stageFactor_inverse h0 2 h₂ k) ht ht1
      (fun k _ w => ?_) (fun k _ w => ?_) (l := s⁻¹ ^ 2) (by positivity) (fun d => ?_) hg hg1 x (by ring)
    · rw [hq, hq, ← mul_assoc, mul_comm (t ^ 2), mul_assoc]
      exact mul_le_mul_of_nonneg_left (hlo w) (by positivity)
    · rw [hq, hq, ← mul_assoc, mul_comm (t⁻¹ ^ 2), mul_assoc]
      exact mul_le_mul_of_nonneg_left (hhi w) (by positivity)
    · rw [stageInverse_first, hinv, invQuad_smul, ← mul_assoc, ← mul_pow, inv_mul_cancel₀ hs0, one_pow, one_mul]

/-- near covariances, near transitions, for one or two stages -/
theorem factorMove_near (hd : Measurable fun x => (pointAt lp x).density) (h0 : ∀ d ∈ ds, d ≠ 0) (hnt : ntry ≤ 2) :
    ∃ C : ℝ, 0 ≤ C ∧ ∀ R₁ R₂ : Fin n → Fin n → ℝ, (of R₁).det ≠ 0 → (of R₂).det ≠ 0 → ∀ t : ℝ, 0 < t → t ≤ 1 →
      (∀ w, t ^ 2 * quadForm (of R₁) w ≤ quadForm (of R₂) w) →
      (∀ w, quadForm (of R₂) w ≤ t⁻¹ ^ 2 * quadForm (of R₁) w) →
      ∀ g : (Fin n → ℝ) → ℝ≥0∞, Measurable g → (∀ y, g y ≤ 1) → ∀ x : Fin n → ℝ,
      expect μ (factorMove D lp ds ntry R₁) 1 g x ≤ expect μ (factorMove D lp ds ntry R₂) 1 g x +
        ENNReal.ofReal (2 * (1 - (t ^ 2) ^ n) + (t⁻¹ ^ 2 - 1) * C) ∧
      expect μ (factorMove D lp ds ntry R₂) 1 g x ≤ expect μ (factorMove D lp ds ntry R₁) 1 g x +
        ENNReal.ofReal (2 * (1 - (t ^ 2) ^ n) + (t⁻¹ ^ 2 - 1) * C) := by
  obtain ⟨C, hC, h⟩ := factorMove_near_all D (ds := ds) h0 hnt
  exact ⟨C, hC, h lp hd⟩

/-- a bound for the Doeblin constants of all factors whose variances lie between `ρ²` and `τ²`, for any number of
stages and all bounded targets -/
theorem factorMove_minor_all (h0 : ∀ d ∈ ds, d ≠ 0) {ρ τ : ℝ} (hρ : 0 < ρ) (hτ : 0 < τ) {M : ℝ} (hM0 : 0 < M) (C : ℝ) :
    ∃ ε : ℝ≥0∞, 0 < ε ∧ ∀ lp : (Fin n → ℝ) → Option ℝ, (Measurable fun x => (pointAt lp x).density) →
      (∀ y, (pointAt lp y).density ≤ M) → (∀ x y, lp x ≠ none → lp y ≠ none → ∀ i, |y i - x i| ≤ C) → ∀ R : Fin n → Fin n → ℝ, (of R).det ≠ 0 →
      (∀ w, ρ ^ 2 * ∑ i, w i ^ 2 ≤ quadForm (of R) w) → (∀ w, quadForm (of R) w ≤ τ ^ 2 * ∑ i, w i ^ 2) →
      ∀ g : (Fin n → ℝ) → ℝ≥0∞, Measurable g → ∀ x, lp x ≠ none →
        ε * ∫⁻ y, ENNReal.ofReal (pointAt lp y).density * g y ≤ expect μ (factorMove D lp ds ntry R) 1 g x := by
  let P : Fin n → Fin n → ℝ := fun i j => ρ * (1 : Matrix (Fin n) (Fin n) ℝ) i j
  have e : of P = ρ • (1 : Matrix (Fin n) (Fin n) ℝ) := by ext i j; simp [P]
  have hdetP : (of P).det ≠ 0 := by
    rw [e, det_smul, det_one, mul_one]
    exact pow_ne_zero _ hρ.ne'
  let E := ENNReal.ofReal (Real.exp (-(1 / 2) * ∑ j, (∑ i, C * |invOf P i j|) ^ 2))
  refine ⟨ENNReal.ofReal ((ρ / τ) ^ n) * (gaussConst (of P) * E) * ENNReal.ofReal M⁻¹, ?_, ?_⟩
  · refine ENNReal.mul_pos (ENNReal.mul_pos (by simp; positivity)
      (ENNReal.mul_pos (gaussConst_pos (mul_invOf hdetP)).ne' ?_).ne').ne' ?_
    · simp [E, Real.exp_pos]
    · simp [hM0]
  intro lp hd hM hC R hR hlo hhi g hg x hx
  have h1 := moveFrom_lower D (A := fun k => of (stageFactor ds ntry R k)) (W := stageInverse ds ntry R) hd
    (K := max 1 ntry.toNat) (by omega) (fun k _ => stageFactor_inverse h0 ntry hR k) hg x
  have h2 : expect μ (factorMove D lp ds ntry R) 1 g x = ∫⁻ s, g (moveFrom D (fun k => of (stageFactor ds ntry R k))
      (stageInverse ds ntry R) lp (max 1 ntry.toNat) 0 (fun _ => x) s).1 ∂μ := by
    unfold expect
    simp only [iterate_one, factorMove_of_unit D ds ntry hR]
  rw [h2]
  refine le_trans ?_ h1
  have hm : Measurable fun y => ENNReal.ofReal (pointAt lp y).density * g y := hd.ennreal_ofReal.mul hg
  rw [← lintegral_const_mul _ hm]
  refine lintegral_mono fun y => ?_
  simp only [stageFactor_first, stageInverse_first]
  by_cases hy : lp y = none
  · have : (pointAt lp y).density = 0 := by simp [pointAt, Point.density, hy]
    simp [this]
  · have h3 : ENNReal.ofReal ((ρ / τ) ^ n) * (gaussConst (of P) * E) ≤ propDensity (of R) (invOf R) x y := by
      have hW := mul_invOf hdetP
      have h4 := propDensity_ge (A₁ := 1) hρ hτ (by simp) (by rw [e] at hW; exact hW) (mul_invOf hR)
        (fun w => by rw [quadForm_one]; exact hlo w) (fun w => by rw [quadForm_one]; exact hhi w) x y
      refine le_trans ?_ h4
      gcongr
      rw [e]
      unfold propDensity
      gcongr
      exact ENNReal.ofReal_le_ofReal (gauss_ge _ (hC x y hx hy))
    have h4 : ENNReal.ofReal M⁻¹ * ENNReal.ofReal (pointAt lp y).density ≤
        ENNReal.ofReal (alphaAt (stageInverse ds ntry R) lp 0 (update (fun _ => x) 1 y)) := by
      rw [← ENNReal.ofReal_mul (inv_nonneg.2 hM0.le), inv_mul_eq_div]
      exact ENNReal.ofReal_le_ofReal (alphaAt_zero_ge hM hx y)
    calc _ = ENNReal.ofReal ((ρ / τ) ^ n) * (gaussConst (of P) * E) *
          ((ENNReal.ofReal M⁻¹ * ENNReal.ofReal (pointAt lp y).density) * g y) := by ring
      _ ≤ _ := by gcongr

/-- a bound for the Doeblin constants of all factors whose variances lie between `ρ²` and `τ²`, for any number of stages -/
theorem factorMove_minor (hd : Measurable fun x => (pointAt lp x).density) (h0 : ∀ d ∈ ds, d ≠ 0) {ρ τ : ℝ} (hρ : 0 < ρ)
    (hτ : 0 < τ) {M C : ℝ} (hM : ∀ y, (pointAt lp y).density ≤ M)
    (hC : ∀ x y, lp x ≠ none → lp y ≠ none → ∀ i, |y i - x i| ≤ C) (hne : ∃ x, lp x ≠ none) :
    ∃ ε : ℝ≥0∞, 0 < ε ∧ ∀ R : Fin n → Fin n → ℝ, (of R).det ≠ 0 →
      (∀ w, ρ ^ 2 * ∑ i, w i ^ 2 ≤ quadForm (of R) w) → (∀ w, quadForm (of R) w ≤ τ ^ 2 * ∑ i, w i ^ 2) →
      ∀ g : (Fin n → ℝ) → ℝ≥0∞, Measurable g → ∀ x, lp x ≠ none →
        ε * ∫⁻ y, ENNReal.ofReal (pointAt lp y).density * g y ≤ expect μ (factorMove D lp ds ntry R) 1 g x := by
  obtain ⟨x0, hx0⟩ := hne
  have hM0 : 0 < M := (density_pos_iff.2 hx0).trans_le (hM x0)
  obtain ⟨ε, hε, h⟩ := factorMove_minor_all D (ds := ds) (ntry := ntry) h0 hρ hτ hM0 C
  exact ⟨ε, hε, h lp hd hM hC⟩

end factor

end Verif
