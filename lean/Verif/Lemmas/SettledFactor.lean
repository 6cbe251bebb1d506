import Verif.Lemmas.KernelClose2
import Verif.Lemmas.AdaptiveErgodic
import Verif.Lemmas.CovBound

/-! # Adaptive runs: the factor in force settles with the sample covariance -/

namespace Verif
open MeasureTheory Function Matrix
open scoped ENNReal

section cov
variable {n : ℕ}

/-- sample covariance of the first `k` rows of a history -/
noncomputable def histCov (k : ℕ) (h : ℕ → (Fin n → ℝ) × (Fin n → Fin n → ℝ)) : Matrix (Fin n) (Fin n) ℝ :=
  sampleCovM ((List.range k).map fun i => (h i).1)

theorem histCov_congr {k : ℕ} {h h' : ℕ → (Fin n → ℝ) × (Fin n → Fin n → ℝ)} (e : ∀ i < k, h i = h' i) :
    histCov k h = histCov k h' := by
  unfold histCov
  congr 1
  exact List.map_congr_left fun i hi => by rw [e i (List.mem_range.1 hi)]

theorem histCov_near {a b : Fin n → ℝ} {C : ℝ} (hab : ∀ i, b i - a i ≤ C)
    {h : ℕ → (Fin n → ℝ) × (Fin n → Fin n → ℝ)} {k l : ℕ} (hk : 1 ≤ k) (hkl : k ≤ l) (hl : 2 ≤ l)
    (hb : ∀ i < l, ∀ c, a c ≤ (h i).1 c ∧ (h i).1 c ≤ b c) (i j : Fin n) :
    |histCov l h i j - histCov k h i j| ≤ 2 * C ^ 2 * ((l : ℝ) - k) / ((l : ℝ) - 1) := by
  have e : (List.range l).map (fun i => (h i).1) =
      (List.range k).map (fun i => (h i).1) ++ (List.range (l - k)).map fun i => (h (k + i)).1 := by
    conv_lhs => rw [show l = k + (l - k) by omega, List.range_add]
    rw [List.map_append, List.map_map]
    rfl
  have hne : (List.range k).map (fun i => (h i).1) ≠ [] := by
    simp; omega
  have h1 := sampleCov_append (a := a) (b := b) hne (l' := (List.range (l - k)).map fun i => (h (k + i)).1)
    (fun r hr => by
      rw [← e] at hr
      obtain ⟨i, hi, rfl⟩ := List.mem_map.1 hr
      exact hb i (List.mem_range.1 hi)) i j
  rw [← e, List.length_map, List.length_map, List.length_range, List.length_range, Nat.cast_sub hkl] at h1
  refine h1.trans ?_
  have hl1 : (0 : ℝ) < (l : ℝ) - 1 := by
    have : (2 : ℝ) ≤ l := by exact_mod_cast hl
    linarith
  have hd : (0 : ℝ) ≤ (l : ℝ) - k := by
    have : (k : ℝ) ≤ l := by exact_mod_cast hkl
    linarith
  have h0 := hb 0 (by omega)
  have hi0 : 0 ≤ b i - a i := by linarith [(h0 i).1, (h0 i).2]
  have hj0 : 0 ≤ b j - a j := by linarith [(h0 j).1, (h0 j).2]
  have : (b i - a i) * (b j - a j) ≤ C ^ 2 := by
    rw [sq]
    exact mul_le_mul (hab i) (hab j) hj0 (hi0.trans (hab i))
  gcongr

theorem histCov_bound {a b : Fin n → ℝ} {C : ℝ} (hab : ∀ i, b i - a i ≤ C)
    {h : ℕ → (Fin n → ℝ) × (Fin n → Fin n → ℝ)} {l : ℕ} (hl : 2 ≤ l)
    (hb : ∀ i < l, ∀ c, a c ≤ (h i).1 c ∧ (h i).1 c ≤ b c) (i j : Fin n) :
    |histCov l h i j| ≤ 2 * C ^ 2 := by
  have h1 := histCov_near hab (le_refl 1) (by omega) hl hb i j
  have e : histCov 1 h i j = 0 := by
    simp [histCov, sampleCovM, sampleCov]
  rw [e, sub_zero] at h1
  have hl1 : (0 : ℝ) < (l : ℝ) - 1 := by
    have : (2 : ℝ) ≤ l := by exact_mod_cast hl
    linarith
  rwa [Nat.cast_one, mul_div_assoc, div_self hl1.ne', mul_one] at h1

/-- entries bounded by `e` bound the quadratic form -/
theorem quad_le {A : Matrix (Fin n) (Fin n) ℝ} {e : ℝ} (h : ∀ i j, |A i j| ≤ e) (w : Fin n → ℝ) :
    |w ⬝ᵥ (A *ᵥ w)| ≤ e * n * ∑ i, w i ^ 2 := by
  have h1 : |w ⬝ᵥ (A *ᵥ w)| ≤ ∑ i, ∑ j, e * (|w i| * |w j|) := by
    simp only [dotProduct, mulVec, Finset.mul_sum]
    refine (Finset.abs_sum_le_sum_abs _ _).trans (Finset.sum_le_sum fun i _ => ?_)
    refine (Finset.abs_sum_le_sum_abs _ _).trans (Finset.sum_le_sum fun j _ => ?_)
    rw [abs_mul, abs_mul]
    have := mul_le_mul_of_nonneg_right (h i j) (mul_nonneg (abs_nonneg (w i)) (abs_nonneg (w j)))
    linarith
  rcases n.eq_zero_or_pos with rfl | hn
  · simp
  have he : 0 ≤ e := (abs_nonneg _).trans (h ⟨0, hn⟩ ⟨0, hn⟩)
  refine h1.trans ?_
  have h2 : ∑ i, ∑ j, e * (|w i| * |w j|) = e * (∑ i, |w i|) ^ 2 := by
    rw [sq, Finset.sum_mul_sum, Finset.mul_sum]
    exact Finset.sum_congr rfl fun i _ => by rw [Finset.mul_sum]
  have h3 := Finset.sum_mul_sq_le_sq_mul_sq Finset.univ (fun _ => (1 : ℝ)) fun i => |w i|
  simp only [sq_abs, one_mul, one_pow, Finset.sum_const, Finset.card_univ, Fintype.card_fin, nsmul_eq_mul,
    mul_one] at h3
  rw [h2, mul_assoc]
  exact mul_le_mul_of_nonneg_left h3 he

/-- the variances under the updated factor -/
theorem quadForm_updatedFactor {L : Lapack XR} (hL : TriangularFactor L n) (ε s : ℝ)
    {M : Fin n → Fin n → ℝ} (hM : (of M).PosDef) (R : Fin n → Fin n → ℝ) (w : Fin n → ℝ) :
    quadForm (of (updatedFactor hL ε s M R)) w = s ^ 2 * (w ⬝ᵥ (of M *ᵥ w)) := by
  obtain ⟨-, h1, -⟩ := (hL _ hM).choose_spec
  have hc : of (cholOf hL M) = (hL _ hM).choose := by
    unfold cholOf; rw [dif_pos hM]; rfl
  have e : of (updatedFactor hL ε s M R) = s • (of (cholOf hL M))ᵀ := by
    unfold updatedFactor
    rw [if_pos hM]
    ext i j
    simp
  rw [e, quadForm_smul, quadForm_gram, transpose_transpose, hc, h1]

theorem updatedFactor_det {L : Lapack XR} (hL : TriangularFactor L n) (ε : ℝ) {s : ℝ} (hs : s ≠ 0)
    {M : Fin n → Fin n → ℝ} (hM : (of M).PosDef) (R : Fin n → Fin n → ℝ) :
    (of (updatedFactor hL ε s M R)).det ≠ 0 := by
  intro h0
  obtain ⟨w, hw, hw0⟩ := exists_mulVec_eq_zero_iff.2 h0
  have h1 := quadForm_updatedFactor hL ε s hM R w
  unfold quadForm at h1
  rw [hw0, zero_dotProduct] at h1
  have h2 := hM.dotProduct_mulVec_pos hw
  rw [star_trivial] at h2
  have : 0 < s ^ 2 * (w ⬝ᵥ (of M *ᵥ w)) := mul_pos (by positivity) h2
  linarith

theorem posDef_of_lower {A : Matrix (Fin n) (Fin n) ℝ} (hA : A.IsSymm) {c : ℝ} (hc : 0 < c)
    (h : ∀ w, c * ∑ i, w i ^ 2 ≤ w ⬝ᵥ (A *ᵥ w)) : A.PosDef := by
  refine .of_dotProduct_mulVec_pos (by
    rw [IsHermitian, conjTranspose_eq_transpose_of_trivial]; exact hA) fun w hw => ?_
  rw [star_trivial]
  refine lt_of_lt_of_le ?_ (h w)
  have : ∃ i, w i ≠ 0 := by
    by_contra hn
    push Not at hn
    exact hw (funext hn)
  obtain ⟨i, hi⟩ := this
  have h1 : w i ^ 2 ≤ ∑ i, w i ^ 2 := Finset.single_le_sum (f := fun i => w i ^ 2) (fun j _ => sq_nonneg _) (Finset.mem_univ i)
  have h2 : 0 < w i ^ 2 := by positivity
  exact mul_pos hc (by linarith)

end cov

section process
variable {n : ℕ} {X σ : Type} [MeasurableSpace X] [MeasurableSpace σ] {T : (Fin n → Fin n → ℝ) → X × σ → X × σ}

/-- the history of the parameter values, in a history of rows with these values and perhaps more -/
def valuesOf (pos : X → Fin n → ℝ) (h : ℕ → X × (Fin n → Fin n → ℝ)) : ℕ → (Fin n → ℝ) × (Fin n → Fin n → ℝ) :=
  fun i => (pos (h i).1, (h i).2)

theorem measurable_valuesOf {pos : X → Fin n → ℝ} (hpos : Measurable pos) :
    Measurable (valuesOf pos) :=
  measurable_pi_iff.2 fun i => (hpos.comp (measurable_fst.comp (measurable_pi_apply i))).prodMk
    (measurable_snd.comp (measurable_pi_apply i))

/-- the factor of the next iteration, from the values -/
noncomputable def nextOf {L : Lapack XR} (pos : X → Fin n → ℝ) (hL : TriangularFactor L n) (adaptint : ℤ)
    (Q : Matrix (Fin n) (Fin n) ℝ) (ε sc : ℝ) (j : ℕ) (h : ℕ → X × (Fin n → Fin n → ℝ)) : Fin n → Fin n → ℝ :=
  nextFactor hL adaptint (fun _ => false) Q ε sc j (valuesOf pos h)

/-- After the first adaptation the factor in force is the one for the rows before the last adaptation. -/
theorem hist_factor {L : Lapack XR} (pos : X → Fin n → ℝ) (hL : TriangularFactor L n) {adaptint : ℤ} (hai : 0 < adaptint)
    (Q : Matrix (Fin n) (Fin n) ℝ) (ε sc : ℝ) (x : X) (R0 : Fin n → Fin n → ℝ) (s : σ) (j : ℕ)
    (hj : adaptint ≤ j) :
    ∃ R', ((histAfter T (nextOf pos hL adaptint Q ε sc) x R0 j s).1 j).2 =
      updatedFactor hL ε sc (fun a b => histCov (adaptint.toNat * (j / adaptint.toNat))
        (valuesOf pos (histAfter T (nextOf pos hL adaptint Q ε sc) x R0 j s).1) a b) R' := by
  have hp : 0 < adaptint.toNat := by omega
  have hmix : ∀ S : Matrix (Fin n) (Fin n) ℝ, mixedCov (fun _ => false) Q S = S := by
    intro S; ext i j; simp [mixedCov]
  have hdue : ∀ (j : ℕ) h, adaptint ∣ ((j + 1 : ℕ) : ℤ) → nextOf pos hL adaptint Q ε sc j h =
      updatedFactor hL ε sc (fun a b => histCov (j + 1) (valuesOf pos h) a b) (h j).2 := by
    intro j h hdv
    unfold nextOf nextFactor
    rw [if_pos ⟨hai, hdv⟩, hmix]
    rfl
  have hnot : ∀ (j : ℕ) h, ¬ adaptint ∣ ((j + 1 : ℕ) : ℤ) →
      nextOf pos hL adaptint Q ε sc j h = (h j).2 := by
    intro j h hdv
    unfold nextOf nextFactor
    rw [if_neg fun h => hdv h.2]
    rfl
  generalize nextOf pos hL adaptint Q ε sc = next at hdue hnot ⊢
  induction j with
  | zero => omega
  | succ j ih =>
    have hag : ∀ i ≤ j, (histAfter T next x R0 (j + 1) s).1 i = (histAfter T next x R0 j s).1 i := by
      intro i hi
      rw [histAfter_stable (by omega) s, histAfter_stable hi s]
    have e : ((histAfter T next x R0 (j + 1) s).1 (j + 1)).2 = next j (histAfter T next x R0 j s).1 := by
      simp only [histAfter, histStep, update_self]
    rw [e]
    by_cases hdv : adaptint ∣ ((j + 1 : ℕ) : ℤ)
    · have hdv' : adaptint.toNat ∣ j + 1 := by
        have : (adaptint.toNat : ℤ) ∣ ((j + 1 : ℕ) : ℤ) := by rwa [Int.toNat_of_nonneg hai.le]
        exact_mod_cast this
      refine ⟨((histAfter T next x R0 j s).1 j).2, ?_⟩
      rw [hdue j _ hdv, Nat.mul_div_cancel' hdv']
      congr 1
      funext a b
      have := histCov_congr (k := j + 1) (h := valuesOf pos (histAfter T next x R0 (j + 1) s).1)
        (h' := valuesOf pos (histAfter T next x R0 j s).1) fun i hi => congrArg (fun p => (pos p.1, p.2)) <| hag i (by omega)
      rw [this]
    · have hne : adaptint ≠ ((j + 1 : ℕ) : ℤ) := fun h => hdv (by rw [← h])
      obtain ⟨R', hR'⟩ := ih (by push_cast at hj hne; omega)
      refine ⟨R', ?_⟩
      have hdv' : ¬ adaptint.toNat ∣ j + 1 := by
        intro h
        apply hdv
        have : (adaptint.toNat : ℤ) ∣ ((j + 1 : ℕ) : ℤ) := by exact_mod_cast h
        rwa [Int.toNat_of_nonneg hai.le] at this
      have hdiv : (j + 1) / adaptint.toNat = j / adaptint.toNat := by
        rw [Nat.succ_div, if_neg hdv', add_zero]
      rw [hnot j _ hdv, hR', hdiv]
      congr 1
      funext a b
      have := histCov_congr (k := adaptint.toNat * (j / adaptint.toNat)) (h := valuesOf pos (histAfter T next x R0 (j + 1) s).1)
        (h' := valuesOf pos (histAfter T next x R0 j s).1) fun i hi => congrArg (fun p => (pos p.1, p.2)) <| hag i (by
          have := Nat.mul_div_le j adaptint.toNat
          omega)
      rw [this]

theorem measurable_histCov (k : ℕ) : Measurable fun h : ℕ → (Fin n → ℝ) × (Fin n → Fin n → ℝ) =>
    fun a b => histCov k h a b :=
  measurable_pi_iff.2 fun a => measurable_pi_iff.2 fun b => measurable_sampleCov _ a b

theorem measurableSet_lower (c : ℝ) : MeasurableSet {A : Fin n → Fin n → ℝ |
    ∀ w, c * ∑ i, w i ^ 2 ≤ w ⬝ᵥ (of A *ᵥ w)} := by
  refine IsClosed.measurableSet ?_
  rw [Set.ofPred_forall]
  refine isClosed_iInter fun w => isClosed_le continuous_const ?_
  simp only [dotProduct, mulVec, of_apply]
  fun_prop

end process

section converge
variable {n : ℕ} {σ : Type} [MeasurableSpace σ] {μ : Measure σ} [IsProbabilityMeasure μ] {G : Rng σ XR}

/-- a share near one whose `n`-th power is near one -/
theorem exists_share (n K : ℕ) {C : ℝ} (hC : 0 ≤ C) {e : ℝ} (he : 0 < e) : ∃ u : ℝ, 0 < u ∧ u < 1 ∧
    2 * (1 - (1 - u) ^ n) + ((1 - u)⁻¹ - 1) * C ≤ 1 ∧ K * (2 * (1 - (1 - u) ^ n) + ((1 - u)⁻¹ - 1) * C) ≤ e := by
  set q : ℝ := 2 * n + 2 * C with hq
  have hq0 : 0 ≤ q := by positivity
  have key : ∀ u : ℝ, 0 < u → u ≤ 1 / 2 → 2 * (1 - (1 - u) ^ n) + ((1 - u)⁻¹ - 1) * C ≤ q * u := by
    intro u h0 h2
    have hb := one_add_mul_le_pow (a := -u) (by linarith) n
    rw [← sub_eq_add_neg] at hb
    have h3 : (1 - u)⁻¹ ≤ 1 + 2 * u := by
      rw [← one_div, div_le_iff₀ (by linarith)]
      nlinarith
    have h4 : ((1 - u)⁻¹ - 1) * C ≤ 2 * u * C := mul_le_mul_of_nonneg_right (by linarith) hC
    rw [hq]
    nlinarith
  have hK : (0 : ℝ) ≤ K := by positivity
  set u := min (1 / 2) (min (1 / (q + 1)) (e / (K * q + 1))) with hu
  have h0 : 0 < u := by rw [hu]; positivity
  have h2 : u ≤ 1 / 2 := min_le_left _ _
  have h3 : u ≤ 1 / (q + 1) := (min_le_right _ _).trans (min_le_left _ _)
  have h4 : u ≤ e / (K * q + 1) := (min_le_right _ _).trans (min_le_right _ _)
  rw [le_div_iff₀ (by positivity)] at h3 h4
  refine ⟨u, h0, by linarith, (key u h0 h2).trans (by nlinarith), ?_⟩
  exact (mul_le_mul_of_nonneg_left (key u h0 h2) hK).trans (by nlinarith)

theorem quad_share {u s q q' : ℝ} (h0 : 0 < u) (h1 : u < 1) (h : |q' - q| ≤ u * q) :
    (1 - u) * (s ^ 2 * q) ≤ s ^ 2 * q' ∧ s ^ 2 * q' ≤ (1 - u)⁻¹ * (s ^ 2 * q) := by
  have hq : 0 ≤ q := by
    have := (abs_nonneg _).trans h
    exact nonneg_of_mul_nonneg_right this h0
  have h2 := abs_le.1 h
  have h5 : 1 + u ≤ (1 - u)⁻¹ := by
    rw [← one_div, le_div_iff₀ (by linarith)]
    nlinarith
  have hs := sq_nonneg s
  constructor
  · calc (1 - u) * (s ^ 2 * q) = s ^ 2 * ((1 - u) * q) := by ring
      _ ≤ _ := mul_le_mul_of_nonneg_left (by linarith) hs
  · calc s ^ 2 * q' ≤ s ^ 2 * ((1 + u) * q) := mul_le_mul_of_nonneg_left (by linarith) hs
      _ ≤ s ^ 2 * ((1 - u)⁻¹ * q) := by gcongr
      _ = _ := by ring

/-- **Adaptive processes converge unless their covariance collapses**, for weights decided `K` rows earlier.  The
rows `x` have the parameter values `pos x`; the transitions `T R` keep `S` and `π`, are near each other for near
factors, and have a common Doeblin constant for factors within bounds. -/
theorem settled_process {X : Type} [MeasurableSpace X] {pos : X → Fin n → ℝ} (hpos : Measurable pos)
    {T : (Fin n → Fin n → ℝ) → X × σ → X × σ} (hT : Measurable fun q : (Fin n → Fin n → ℝ) × X × σ => T q.1 q.2)
    (hf : ∀ R, Fresh μ (T R)) {S0 : Set X} (hkeep : ∀ R, ∀ x ∈ S0, ∀ s, (T R (x, s)).1 ∈ S0) {a b : Fin n → ℝ}
    (hbox : ∀ x ∈ S0, ∀ i, a i ≤ pos x i ∧ pos x i ≤ b i) {N : ℝ} (hN0 : 0 ≤ N)
    (hnear : ∀ R₁ R₂ : Fin n → Fin n → ℝ, (of R₁).det ≠ 0 → (of R₂).det ≠ 0 → ∀ t : ℝ, 0 < t → t ≤ 1 →
      (∀ w, t ^ 2 * quadForm (of R₁) w ≤ quadForm (of R₂) w) →
      (∀ w, quadForm (of R₂) w ≤ t⁻¹ ^ 2 * quadForm (of R₁) w) →
      ∀ g : X → ℝ≥0∞, Measurable g → (∀ y, g y ≤ 1) → ∀ x ∈ S0,
      expect μ (T R₁) 1 g x ≤ expect μ (T R₂) 1 g x + ENNReal.ofReal (2 * (1 - (t ^ 2) ^ n) + (t⁻¹ ^ 2 - 1) * N) ∧
      expect μ (T R₂) 1 g x ≤ expect μ (T R₁) 1 g x + ENNReal.ofReal (2 * (1 - (t ^ 2) ^ n) + (t⁻¹ ^ 2 - 1) * N))
    {π : Measure X} [IsProbabilityMeasure π] (hinv : ∀ R, MeasurePreserving (T R) (π.prod μ) (π.prod μ))
    (hπS : π S0ᶜ = 0) {d : ℕ} (hd0 : 0 < d)
    (hdoe : ∀ ρ τ : ℝ, 0 < ρ → 0 < τ → ∃ ε : ℝ≥0∞, 0 < ε ∧ ε ≤ 1 ∧ ∀ R : Fin n → Fin n → ℝ, (of R).det ≠ 0 →
      (∀ w, ρ ^ 2 * ∑ i, w i ^ 2 ≤ quadForm (of R) w) → (∀ w, quadForm (of R) w ≤ τ ^ 2 * ∑ i, w i ^ 2) →
      Doeblin μ (T R) S0 d ε π)
    {L : Lapack XR} (hL : TriangularFactor L n) {adaptint : ℤ} (hai : 0 < adaptint) (adj : ℝ) {sc : ℝ} (hsc : 0 < sc)
    {e c : ℝ} (he : 0 < e) (hc : 0 < c) :
    ∃ K J : ℕ, K ≤ J ∧ ∀ (Q : Matrix (Fin n) (Fin n) ℝ) (R0 : Fin n → Fin n → ℝ) (x : X), x ∈ S0 →
      ∀ j, J ≤ j → ∀ V : (ℕ → X × (Fin n → Fin n → ℝ)) → ℝ≥0∞, Measurable V → (∀ h, V h ≤ 1) →
      (∀ h h' : ℕ → X × (Fin n → Fin n → ℝ), (∀ i ≤ j - K, h i = h' i) → V h = V h') →
      ∀ f : X → ℝ≥0∞, Measurable f → (∀ y, f y ≤ 1) →
      |(∫⁻ s, V (histAfter T (nextOf pos hL adaptint Q adj sc) x R0 (j - K) s).1 *
          f ((histAfter T (nextOf pos hL adaptint Q adj sc) x R0 j s).1 j).1 ∂μ).toReal - (∫⁻ y, f y ∂π).toReal *
          (∫⁻ s, V (histAfter T (nextOf pos hL adaptint Q adj sc) x R0 (j - K) s).1 ∂μ).toReal| ≤
        e + μ.real {s | ¬ ∀ w, c * ∑ i, w i ^ 2 ≤ w ⬝ᵥ (histCov (j - K) (valuesOf pos (histAfter T
          (nextOf pos hL adaptint Q adj sc) x R0 (j - K) s).1) *ᵥ w)} := by

  -- the ranges
  obtain ⟨C, hC0, hC⟩ : ∃ C : ℝ, 0 ≤ C ∧ ∀ i, b i - a i ≤ C := by
    refine ⟨∑ i, |b i - a i|, Finset.sum_nonneg fun i _ => abs_nonneg _, fun i => ?_⟩
    exact (le_abs_self _).trans (Finset.single_le_sum (f := fun i => |b i - a i|) (fun j _ => abs_nonneg _)
      (Finset.mem_univ i))
  -- a common Doeblin constant
  have hρ : 0 < sc * √c := mul_pos hsc (Real.sqrt_pos.2 hc)
  have hτ : 0 < sc * √(2 * C ^ 2 * n + 1) := mul_pos hsc (Real.sqrt_pos.2 (by positivity))
  obtain ⟨ε, hε0, hε1', hlow⟩ := hdoe _ _ hρ hτ
  have hρ2 : (sc * √c) ^ 2 = sc ^ 2 * c := by rw [mul_pow, Real.sq_sqrt hc.le]
  have hτ2 : (sc * √(2 * C ^ 2 * n + 1)) ^ 2 = sc ^ 2 * (2 * C ^ 2 * n + 1) := by
    rw [mul_pow, Real.sq_sqrt (by positivity)]
  have hεt : ε ≠ ⊤ := ne_top_of_le_ne_top ENNReal.one_ne_top hε1'
  have hεR : 0 < ε.toReal := ENNReal.toReal_pos hε0.ne' hεt
  have hεR1 : ε.toReal ≤ 1 := ENNReal.toReal_le_of_le_ofReal one_pos.le (by simpa using hε1')
  -- the number of steps
  obtain ⟨K0, hK0⟩ := exists_pow_lt_of_lt_one (half_pos he) (show 1 - ε.toReal < 1 by linarith)
  obtain ⟨K, rfl⟩ : ∃ K, K = d * K0 := ⟨_, rfl⟩
  have hK : (1 - ε.toReal) ^ (d * K0 / d) < e / 2 := by rwa [Nat.mul_div_cancel_left _ hd0]
  generalize d * K0 = K at hK
  obtain ⟨u, hu0, hu1, hu2, huK⟩ := exists_share n K hN0 (half_pos he)
  set p := adaptint.toNat with hp
  have hp0 : 0 < p := by omega
  obtain ⟨J0, hJ0⟩ := exists_nat_ge (2 * C ^ 2 * (K + p) * n / (u * c))
  refine ⟨K, K + (J0 + p + 2), by omega, fun Q R0 x hx j hj V hV hV1 hV0 f hfm hf1 => ?_⟩
  set next := nextOf pos hL adaptint Q adj sc with hnext
  obtain ⟨j0, rfl⟩ : ∃ j0, j = j0 + K := ⟨j - K, by omega⟩
  rw [Nat.add_sub_cancel] at hV0 ⊢
  have hj0 : J0 + p + 2 ≤ j0 := by omega
  have hn : ∀ j, Measurable (next j) := fun j =>
    (measurable_nextFactor _ _ _ _ _ _ j).comp (measurable_valuesOf hpos)
  set Hs := histAfter T next x R0 with hHs
  -- rows stay where the posterior is positive
  have hrow : ∀ j s, ((Hs j s).1 j).1 ∈ S0 := by
    intro j s
    induction j with
    | zero => exact hx
    | succ j ih =>
      have : ((Hs (j + 1) s).1 (j + 1)).1 = (T ((Hs j s).1 j).2 (((Hs j s).1 j).1, (Hs j s).2)).1 := by
        simp only [hHs, histAfter, histStep, update_self]
      rw [this]
      exact hkeep _ _ ih _
  have hrows : ∀ j s, ∀ i ≤ j, ∀ k, a k ≤ pos ((Hs j s).1 i).1 k ∧ pos ((Hs j s).1 i).1 k ≤ b k := by
    intro j s i hi
    have : (Hs j s).1 i = (Hs i s).1 i := histAfter_stable hi s
    rw [this]
    exact hbox _ (hrow i s)
  -- the event and the factor for the rows before `j0`
  let E : Set (ℕ → X × (Fin n → Fin n → ℝ)) := {h | ∀ w, c * ∑ i, w i ^ 2 ≤ w ⬝ᵥ (histCov j0 (valuesOf pos h) *ᵥ w)}
  have hE : MeasurableSet E := ((measurable_histCov j0).comp (measurable_valuesOf hpos)) (measurableSet_lower c)
  let S : (ℕ → X × (Fin n → Fin n → ℝ)) → Fin n → Fin n → ℝ := fun h =>
    updatedFactor hL adj sc (fun a b => histCov j0 (valuesOf pos h) a b) 0
  have hS : Measurable S := (measurable_updatedFactor hL adj sc).comp
    (((measurable_histCov j0).comp (measurable_valuesOf hpos)).prodMk measurable_const)
  have hpdE : ∀ h ∈ E, (histCov j0 (valuesOf pos h)).PosDef := fun h hh => posDef_of_lower (sampleCovM_symm _) hc hh
  have hquadS : ∀ h ∈ E, ∀ w, quadForm (of (S h)) w = sc ^ 2 * (w ⬝ᵥ (histCov j0 (valuesOf pos h) *ᵥ w)) := fun h hh w =>
    quadForm_updatedFactor hL adj sc (M := fun a b => histCov j0 (valuesOf pos h) a b) (hpdE h hh) 0 w
  have hdetS : ∀ h ∈ E, (of (S h)).det ≠ 0 := fun h hh =>
    updatedFactor_det hL adj hsc.ne' (M := fun a b => histCov j0 (valuesOf pos h) a b) (hpdE h hh) 0
  set t := √(1 - u) with ht
  have ht2 : t ^ 2 = 1 - u := Real.sq_sqrt (by linarith)
  have ht0 : 0 < t := Real.sqrt_pos.2 (by linarith)
  have ht1 : t ≤ 1 := Real.sqrt_le_one.2 (by linarith)
  set δ := 2 * (1 - (1 - u) ^ n) + ((1 - u)⁻¹ - 1) * N with hδ
  have hδ0 : 0 ≤ δ := by
    have h3 : (1 - u) ^ n ≤ 1 := pow_le_one₀ (by linarith) (by linarith)
    have h4 : 1 ≤ (1 - u)⁻¹ := (one_le_inv₀ (by linarith)).2 (by linarith)
    have h5 : 0 ≤ ((1 - u)⁻¹ - 1) * N := mul_nonneg (by linarith) hN0
    linarith
  have hconv : ∀ {a b : ℝ≥0∞}, a ≤ b + ENNReal.ofReal δ → a + ENNReal.ofReal (1 - δ) ≤ b + 1 := by
    intro a b hab
    calc a + ENNReal.ofReal (1 - δ) ≤ b + ENNReal.ofReal δ + ENNReal.ofReal (1 - δ) := by gcongr
      _ = b + 1 := by
        rw [add_assoc, ← ENNReal.ofReal_add hδ0 (by linarith)]
        simp
  have hVE : ∀ h, E.indicator V h ≠ 0 → h ∈ E := fun h hh => by
    by_contra hn
    exact hh (Set.indicator_of_notMem hn _)
  have hE0 : ∀ h h' : ℕ → X × (Fin n → Fin n → ℝ), (∀ i ≤ j0, h i = h' i) → h ∈ E → h' ∈ E := by
    intro h h' hag hh w
    have : histCov j0 (valuesOf pos h) = histCov j0 (valuesOf pos h') :=
        histCov_congr fun i hi => congrArg (fun p => (pos p.1, p.2)) (hag i hi.le)
    rw [← this]
    exact hh w
  have main := settled_weighted (μ := μ) hT hf hn x R0 j0 K (V := E.indicator V) (hV.indicator hE)
    (fun h => (Set.indicator_le_self' (fun _ _ => zero_le) h).trans (hV1 h))
    (fun h h' hag => by
      by_cases hh : h ∈ E
      · rw [Set.indicator_of_mem hh, Set.indicator_of_mem (hE0 h h' hag hh), hV0 h h' hag]
      · rw [Set.indicator_of_notMem hh, Set.indicator_of_notMem fun hh' =>
          hh (hE0 h' h (fun i hi => (hag i hi).symm) hh')])
    hS (fun h h' hag => by
      have : histCov j0 (valuesOf pos h) = histCov j0 (valuesOf pos h') :=
        histCov_congr fun i hi => congrArg (fun p => (pos p.1, p.2)) (hag i hi.le)
      simp only [S, this])
    (κ := 1 - δ) (by linarith) (by linarith)
    (fun j h1 h2 s hs g hg hg1 => ?_) hfm hf1 (p := (∫⁻ y, f y ∂π).toReal) (η := (1 - ε.toReal) ^ (K / d)) (by
      have : 0 ≤ 1 - ε.toReal := by linarith
      positivity) (fun s hs => ?_)
  · -- the share of the weight where the covariance has collapsed
    have hmh : ∀ j, Measurable fun s => (Hs j s).1 := fun j =>
      measurable_fst.comp (histAfter_fresh hT hf hn x R0 j).1
    have hmf : Measurable fun s => f ((Hs (j0 + K) s).1 (j0 + K)).1 := hfm.comp (measurable_fst.comp
      ((measurable_pi_apply _).comp (hmh _)))
    have hbad : MeasurableSet {s | (Hs j0 s).1 ∉ E} := (hmh j0) hE.compl
    have hsplit : ∀ g : σ → ℝ≥0∞, Measurable g → (∀ s, g s ≤ 1) →
        ∃ d, 0 ≤ d ∧ d ≤ μ.real {s | (Hs j0 s).1 ∉ E} ∧
        (∫⁻ s, V (Hs j0 s).1 * g s ∂μ).toReal = (∫⁻ s, E.indicator V (Hs j0 s).1 * g s ∂μ).toReal + d := by
      intro g hg hg1
      have hm1 : Measurable fun s => E.indicator V (Hs j0 s).1 * g s := ((hV.indicator hE).comp (hmh j0)).mul hg
      have hle : ∀ φ : σ → ℝ≥0∞, (∀ s, φ s ≤ 1) → ∫⁻ s, φ s ∂μ ≠ ⊤ := fun φ hφ => by
        refine ne_top_of_le_ne_top ENNReal.one_ne_top ?_
        calc _ ≤ ∫⁻ _, 1 ∂μ := lintegral_mono hφ
          _ = 1 := by simp
      refine ⟨(∫⁻ s, Eᶜ.indicator V (Hs j0 s).1 * g s ∂μ).toReal, ENNReal.toReal_nonneg, ?_, ?_⟩
      · refine ENNReal.toReal_mono (measure_ne_top _ _) ?_
        rw [← lintegral_indicator_one hbad]
        refine lintegral_mono fun s => ?_
        by_cases hs : (Hs j0 s).1 ∈ E
        · simp [hs]
        · have : s ∈ {s | (Hs j0 s).1 ∉ E} := hs
          rw [Set.indicator_of_mem this, Set.indicator_of_mem (show (Hs j0 s).1 ∈ Eᶜ from hs)]
          exact mul_le_one' (hV1 _) (hg1 s)
      · rw [← ENNReal.toReal_add, ← lintegral_add_left hm1]
        · congr 1
          refine lintegral_congr fun s => ?_
          by_cases hs : (Hs j0 s).1 ∈ E <;> simp [hs]
        · exact hle _ fun s => mul_le_one' ((Set.indicator_le_self' (fun _ _ => zero_le) _).trans (hV1 _)) (hg1 s)
        · exact hle _ fun s => mul_le_one' ((Set.indicator_le_self' (fun _ _ => zero_le) _).trans (hV1 _)) (hg1 s)
    obtain ⟨d1, h10, h11, h12⟩ := hsplit _ hmf fun s => hf1 _
    obtain ⟨d2, h20, h21, h22⟩ := hsplit (fun _ => 1) measurable_const fun _ => le_rfl
    simp only [mul_one] at h22
    have hp0 : 0 ≤ (∫⁻ y, f y ∂π).toReal := ENNReal.toReal_nonneg
    have hp1 : (∫⁻ y, f y ∂π).toReal ≤ 1 := by
      refine ENNReal.toReal_le_of_le_ofReal one_pos.le ?_
      calc _ ≤ ∫⁻ _, 1 ∂π := lintegral_mono hf1
        _ = ENNReal.ofReal 1 := by simp
    have h3 : 0 ≤ (∫⁻ y, f y ∂π).toReal * d2 := mul_nonneg hp0 h20
    have h4 : (∫⁻ y, f y ∂π).toReal * d2 ≤ d2 := mul_le_of_le_one_left h20 hp1
    change _ ≤ K * (1 - (1 - δ)) + (1 - ε.toReal) ^ (K / d) at main
    rw [sub_sub_cancel] at main
    change |(∫⁻ s, V (Hs j0 s).1 * f ((Hs (j0 + K) s).1 (j0 + K)).1 ∂μ).toReal - _ *
      (∫⁻ s, V (Hs j0 s).1 ∂μ).toReal| ≤ e + μ.real {s | (Hs j0 s).1 ∉ E}
    rw [h12, h22, mul_add]
    have h5 := abs_le.1 main
    rw [abs_le]
    constructor <;> linarith [h5.1, h5.2]
  · -- the factor in force is near
    replace hs : (Hs j s).1 ∈ E := hVE _ hs
    set h := (Hs j s).1 with hh
    obtain ⟨R', hR'⟩ := hist_factor (T := T) pos hL hai Q adj sc x R0 s j (by omega)
    change (h j).2 = updatedFactor hL adj sc (fun a b => histCov (p * (j / p)) (valuesOf pos h) a b) R' at hR'
    set k := p * (j / p) with hk
    have hk1 : k ≤ j := Nat.mul_div_le j p
    have hk2 : j < k + p := by
      have := Nat.lt_mul_div_succ j hp0
      rw [Nat.mul_succ] at this
      exact this
    have hbk : ∀ i ≤ j, ∀ c, a c ≤ pos (h i).1 c ∧ pos (h i).1 c ≤ b c := hrows j s
    have hdiff : ∀ i i', |(histCov k (valuesOf pos h) - histCov j0 (valuesOf pos h)) i i'| ≤ 2 * C ^ 2 * (K + p) / ((j0 : ℝ) - 1) := by
      intro i i'
      have hj1 : (0 : ℝ) < (j0 : ℝ) - 1 := by
        have : (2 : ℝ) ≤ j0 := by exact_mod_cast (by omega : 2 ≤ j0)
        linarith
      rw [Matrix.sub_apply]
      rcases le_total k j0 with hkj | hkj
      · have := histCov_near hC (h := valuesOf pos h) (k := k) (l := j0) (by omega) hkj (by omega) (fun i hi => hbk i (by omega)) i i'
        rw [abs_sub_comm]
        refine this.trans ?_
        have : (j0 : ℝ) - k ≤ K + p := by
          have : (j0 : ℝ) ≤ k + p := by exact_mod_cast (by omega : j0 ≤ k + p)
          have : (0 : ℝ) ≤ K := by positivity
          linarith
        gcongr
      · have := histCov_near hC (h := valuesOf pos h) (k := j0) (l := k) (by omega) hkj (by omega) (fun i hi => hbk i (by omega)) i i'
        refine this.trans ?_
        have h3 : (k : ℝ) - j0 ≤ K + p := by
          have : (k : ℝ) ≤ j0 + K := by exact_mod_cast (by omega : k ≤ j0 + K)
          have : (0 : ℝ) ≤ p := by positivity
          linarith
        have h4 : (j0 : ℝ) ≤ k := by exact_mod_cast hkj
        gcongr
    have hw : ∀ w : Fin n → ℝ, |w ⬝ᵥ (histCov k (valuesOf pos h) *ᵥ w) - w ⬝ᵥ (histCov j0 (valuesOf pos h) *ᵥ w)| ≤
        u * (w ⬝ᵥ (histCov j0 (valuesOf pos h) *ᵥ w)) := by
      intro w
      have h3 := quad_le hdiff w
      rw [sub_mulVec, dotProduct_sub] at h3
      refine h3.trans ?_
      have h4 : 2 * C ^ 2 * (K + p) / ((j0 : ℝ) - 1) * n ≤ u * c := by
        have hj1 : (0 : ℝ) < (j0 : ℝ) - 1 := by
          have : (2 : ℝ) ≤ j0 := by exact_mod_cast (by omega : 2 ≤ j0)
          linarith
        have h5 : (J0 : ℝ) ≤ (j0 : ℝ) - 1 := by
          have : (J0 : ℝ) + 1 ≤ j0 := by exact_mod_cast (by omega : J0 + 1 ≤ j0)
          linarith
        have h6 := hJ0.trans h5
        rw [div_le_iff₀ (mul_pos hu0 hc)] at h6
        rw [div_mul_eq_mul_div, div_le_iff₀ hj1]
        linarith
      have h5 : 0 ≤ ∑ i, w i ^ 2 := Finset.sum_nonneg fun i _ => sq_nonneg _
      calc _ ≤ u * c * ∑ i, w i ^ 2 := mul_le_mul_of_nonneg_right h4 h5
        _ = u * (c * ∑ i, w i ^ 2) := by ring
        _ ≤ _ := mul_le_mul_of_nonneg_left (hs w) hu0.le
    have hpk : (histCov k (valuesOf pos h)).PosDef := by
      refine posDef_of_lower (c := (1 - u) * c) (sampleCovM_symm _) (mul_pos (by linarith) hc) fun w => ?_
      have h3 := (abs_le.1 (hw w)).1
      have h4 := mul_le_mul_of_nonneg_left (hs w) (show 0 ≤ 1 - u by linarith)
      rw [mul_assoc]
      linarith
    have hqk : ∀ w, quadForm (of (h j).2) w = sc ^ 2 * (w ⬝ᵥ (histCov k (valuesOf pos h) *ᵥ w)) := fun w => by
      rw [hR']
      exact quadForm_updatedFactor hL adj sc (M := fun a b => histCov k (valuesOf pos h) a b) hpk R' w
    have hdk : (of (h j).2).det ≠ 0 := by
      rw [hR']
      exact updatedFactor_det hL adj hsc.ne' (M := fun a b => histCov k (valuesOf pos h) a b) hpk R'
    have hsc2 : 0 < sc ^ 2 := by positivity
    have hcl := hnear (S h) (h j).2 (hdetS h hs) hdk t ht0 ht1 (fun w => ?_) (fun w => ?_) g hg hg1 (h j).1 (hrow j s)
    · rw [inv_pow, ht2, ← hδ] at hcl
      exact ⟨hconv hcl.1, hconv hcl.2⟩
    · rw [hquadS h hs, hqk, ht2]
      exact (quad_share (s := sc) hu0 hu1 (hw w)).1
    · rw [hquadS h hs, hqk, inv_pow, ht2]
      exact (quad_share (s := sc) hu0 hu1 (hw w)).2
  · -- the transition for the rows before `j0` comes near to the posterior
    replace hs : (Hs j0 s).1 ∈ E := hVE _ hs
    set h := (Hs j0 s).1 with hh
    have hdoe := hlow (S h) (hdetS h hs) (fun w => by
      rw [hρ2, hquadS h hs, mul_assoc]
      exact mul_le_mul_of_nonneg_left (hs w) (by positivity)) (fun w => by
      rw [hτ2, hquadS h hs, mul_assoc]
      refine mul_le_mul_of_nonneg_left ?_ (by positivity)
      have h4 := (abs_le.1 (quad_le (histCov_bound hC (h := valuesOf pos h) (l := j0) (by omega)
        (fun i hi => hrows j0 s i hi.le)) w)).2
      have h5 : 0 ≤ ∑ i, w i ^ 2 := Finset.sum_nonneg fun i _ => sq_nonneg _
      linarith)
    exact hdoe.expect_near (hinv _) hπS hfm hf1 K (hrow j0 s)

/-- **Adaptive runs converge unless their covariance collapses**, for weights decided `K` rows earlier. -/
theorem process_weighted (D : IdealRng G n μ) {lp : (Fin n → ℝ) → Option ℝ} {ds : List ℝ} {ntry : ℤ}
    (hd : Measurable fun x => (pointAt lp x).density) (h0 : ∀ d ∈ ds, d ≠ 0) (hnt : ntry ≤ 2)
    {M : ℝ} (hM : ∀ y, (pointAt lp y).density ≤ M) {a b : Fin n → ℝ}
    (hbox : ∀ x, lp x ≠ none → ∀ i, a i ≤ x i ∧ x i ≤ b i) (hne : ∃ x, lp x ≠ none)
    {π : Measure (Fin n → ℝ)} [IsProbabilityMeasure π] {Z : ℝ≥0∞} (hZ0 : Z ≠ 0) (hZt : Z ≠ ⊤)
    (hπ : π = Z⁻¹ • (volume.withDensity fun x => ENNReal.ofReal (pointAt lp x).density))
    {L : Lapack XR} (hL : TriangularFactor L n) {adaptint : ℤ} (hai : 0 < adaptint) (adj : ℝ) {sc : ℝ} (hsc : 0 < sc)
    {e c : ℝ} (he : 0 < e) (hc : 0 < c) :
    ∃ K J : ℕ, K ≤ J ∧ ∀ (Q : Matrix (Fin n) (Fin n) ℝ) (R0 : Fin n → Fin n → ℝ) (x : Fin n → ℝ), lp x ≠ none →
      ∀ j, J ≤ j → ∀ V : (ℕ → (Fin n → ℝ) × (Fin n → Fin n → ℝ)) → ℝ≥0∞, Measurable V → (∀ h, V h ≤ 1) →
      (∀ h h' : ℕ → (Fin n → ℝ) × (Fin n → Fin n → ℝ), (∀ i ≤ j - K, h i = h' i) → V h = V h') →
      ∀ f : (Fin n → ℝ) → ℝ≥0∞, Measurable f → (∀ y, f y ≤ 1) →
      |(∫⁻ s, V (histAfter (factorMove D lp ds ntry) (nextFactor hL adaptint (fun _ => false) Q adj sc) x R0 (j - K)
          s).1 * f ((histAfter (factorMove D lp ds ntry) (nextFactor hL adaptint (fun _ => false) Q adj sc) x R0 j
          s).1 j).1 ∂μ).toReal - (∫⁻ y, f y ∂π).toReal * (∫⁻ s, V (histAfter (factorMove D lp ds ntry)
          (nextFactor hL adaptint (fun _ => false) Q adj sc) x R0 (j - K) s).1 ∂μ).toReal| ≤
        e + μ.real {s | ¬ ∀ w, c * ∑ i, w i ^ 2 ≤ w ⬝ᵥ (histCov (j - K) (histAfter (factorMove D lp ds ntry)
          (nextFactor hL adaptint (fun _ => false) Q adj sc) x R0 (j - K) s).1 *ᵥ w)} := by
  obtain ⟨C, hC0, hC⟩ : ∃ C : ℝ, 0 ≤ C ∧ ∀ i, b i - a i ≤ C := by
    refine ⟨∑ i, |b i - a i|, Finset.sum_nonneg fun i _ => abs_nonneg _, fun i => ?_⟩
    exact (le_abs_self _).trans (Finset.single_le_sum (f := fun i => |b i - a i|) (fun j _ => abs_nonneg _)
      (Finset.mem_univ i))
  have hCC : ∀ x y, lp x ≠ none → lp y ≠ none → ∀ i, |y i - x i| ≤ C := fun x y hx hy i =>
    (abs_sub_le_range (hbox y hy i) (hbox x hx i)).trans (hC i)
  obtain ⟨N, hN0, hnear⟩ := factorMove_near D (ds := ds) hd h0 hnt
  have hf : ∀ R, Fresh μ (factorMove D lp ds ntry R) := fresh_factorMove D hd h0 ntry
  refine settled_process (pos := fun x => x) measurable_id (measurable_factorMove D hd ds ntry) hf
    (S0 := {x | lp x ≠ none}) (fun R x hx s => factorMove_mem D _ _ hx) hbox hN0
    (fun R₁ R₂ h₁ h₂ t ht ht1 hlo hhi g hg hg1 x _ => hnear R₁ R₂ h₁ h₂ t ht ht1 hlo hhi g hg hg1 x)
    (fun R => ?_) ?_ one_pos (fun ρ τ hρ hτ => ?_) hL hai adj hsc he hc
  · have h3 := factorMove_invariant D (lp := lp) (ds := ds) hd h0 ntry R
    rw [hπ, Measure.prod_smul_left]
    exact h3.smul_measure _
  · rw [hπ, Measure.smul_apply, withDensity_apply_eq_zero' hd.ennreal_ofReal.aemeasurable |>.2, smul_zero]
    rw [show {x | ENNReal.ofReal (pointAt lp x).density ≠ 0} ∩ {x | lp x ≠ none}ᶜ = ∅ from ?_, measure_empty]
    ext y
    simp only [Set.mem_inter_iff, Set.mem_compl_iff, Set.mem_empty_iff_false, iff_false, not_and, not_not]
    intro hy
    have : 0 < (pointAt lp y).density := by
      by_contra hn
      exact hy (ENNReal.ofReal_eq_zero.2 (not_lt.1 hn))
    exact density_pos_iff.1 this
  · obtain ⟨ε1, hε1, hlow⟩ := factorMove_minor D (ds := ds) (ntry := ntry) hd h0 hρ hτ hM hCC hne
    refine ⟨min (ε1 * Z) 1, lt_min (ENNReal.mul_pos hε1.ne' hZ0) one_pos, min_le_right _ _, fun R hR hlo hhi => ?_⟩
    refine ⟨hf _, ?_, fun y hy => ae_of_all _ fun s => factorMove_mem D _ _ hy, one_pos, inferInstance,
      min_le_right _ _, ?_⟩
    · have : {x | lp x ≠ none} = (fun x => (pointAt lp x).density) ⁻¹' Set.Ioi 0 := by
        ext y
        exact density_pos_iff.symm
      rw [this]
      exact hd measurableSet_Ioi
    · intro y hy B hB
      have hb : Measurable (B.indicator (1 : (Fin n → ℝ) → ℝ≥0∞)) := measurable_one.indicator hB
      have h3 := hlow R hR hlo hhi _ hb y hy
      have e1 : expect μ (factorMove D lp ds ntry R) 1 (B.indicator 1) y =
          μ {s | ((factorMove D lp ds ntry R)^[1] (y, s)).1 ∈ B} := by
        have hm : MeasurableSet {s | ((factorMove D lp ds ntry R)^[1] (y, s)).1 ∈ B} := (hf R).measurable_row 1 y hB
        rw [← lintegral_indicator_one hm]
        rfl
      have e2 : ∫⁻ y, ENNReal.ofReal (pointAt lp y).density * B.indicator (1 : (Fin n → ℝ) → ℝ≥0∞) y = Z * π B := by
        rw [hπ, Measure.smul_apply, smul_eq_mul, ← mul_assoc, ENNReal.mul_inv_cancel hZ0 hZt, one_mul,
          withDensity_apply _ hB, ← lintegral_indicator hB]
        refine lintegral_congr fun y => ?_
        by_cases hy : y ∈ B <;> simp [hy]
      rw [e1, e2, ← mul_assoc] at h3
      refine le_trans ?_ h3
      gcongr
      exact min_le_left _ _

/-- The law of a row is near to `π` unless the covariance has collapsed. -/
theorem process_converges (D : IdealRng G n μ) {lp : (Fin n → ℝ) → Option ℝ} {ds : List ℝ} {ntry : ℤ}
    (hd : Measurable fun x => (pointAt lp x).density) (h0 : ∀ d ∈ ds, d ≠ 0) (hnt : ntry ≤ 2)
    {M : ℝ} (hM : ∀ y, (pointAt lp y).density ≤ M) {a b : Fin n → ℝ}
    (hbox : ∀ x, lp x ≠ none → ∀ i, a i ≤ x i ∧ x i ≤ b i) (hne : ∃ x, lp x ≠ none)
    {π : Measure (Fin n → ℝ)} [IsProbabilityMeasure π] {Z : ℝ≥0∞} (hZ0 : Z ≠ 0) (hZt : Z ≠ ⊤)
    (hπ : π = Z⁻¹ • (volume.withDensity fun x => ENNReal.ofReal (pointAt lp x).density))
    {L : Lapack XR} (hL : TriangularFactor L n) {adaptint : ℤ} (hai : 0 < adaptint) (adj : ℝ) {sc : ℝ} (hsc : 0 < sc)
    {e c : ℝ} (he : 0 < e) (hc : 0 < c) :
    ∃ K J : ℕ, K ≤ J ∧ ∀ (Q : Matrix (Fin n) (Fin n) ℝ) (R0 : Fin n → Fin n → ℝ) (x : Fin n → ℝ), lp x ≠ none →
      ∀ j, J ≤ j → ∀ B, MeasurableSet B →
      |μ.real {s | ((histAfter (factorMove D lp ds ntry) (nextFactor hL adaptint (fun _ => false) Q adj sc) x R0 j
          s).1 j).1 ∈ B} - π.real B| ≤
        e + μ.real {s | ¬ ∀ w, c * ∑ i, w i ^ 2 ≤ w ⬝ᵥ (histCov (j - K) (histAfter (factorMove D lp ds ntry)
          (nextFactor hL adaptint (fun _ => false) Q adj sc) x R0 (j - K) s).1 *ᵥ w)} := by
  obtain ⟨K, J, hKJ, h⟩ := process_weighted D hd h0 hnt hM hbox hne hZ0 hZt hπ hL hai adj hsc he hc
  refine ⟨K, J, hKJ, fun Q R0 x hx j hj B hB => ?_⟩
  have := h Q R0 x hx j hj (fun _ => 1) measurable_const (fun _ => le_rfl) (fun _ _ _ => rfl) (B.indicator 1)
    (measurable_one.indicator hB) fun x => Set.indicator_le_self' (fun _ _ => zero_le) x
  have hm : MeasurableSet {s | ((histAfter (factorMove D lp ds ntry) (nextFactor hL adaptint (fun _ => false) Q adj sc)
      x R0 j s).1 j).1 ∈ B} := (measurable_fst.comp ((measurable_pi_apply j).comp (measurable_fst.comp
    (histAfter_fresh (measurable_factorMove D hd ds ntry) (fresh_factorMove D hd h0 ntry)
      (measurable_nextFactor _ _ _ _ _ _) x R0 j).1))) hB
  have e1 : ∫⁻ s, B.indicator (1 : (Fin n → ℝ) → ℝ≥0∞) ((histAfter (factorMove D lp ds ntry)
      (nextFactor hL adaptint (fun _ => false) Q adj sc) x R0 j s).1 j).1 ∂μ = μ {s | ((histAfter
      (factorMove D lp ds ntry) (nextFactor hL adaptint (fun _ => false) Q adj sc) x R0 j s).1 j).1 ∈ B} := by
    rw [← lintegral_indicator_one hm]
    rfl
  simp only [one_mul, lintegral_const, measure_univ, mul_one, ENNReal.toReal_one, lintegral_indicator_one hB] at this
  rw [e1] at this
  exact this

end converge

end Verif
