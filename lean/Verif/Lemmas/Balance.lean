import Verif.Lemmas.GaussStep
import Verif.Spec.Acceptance

/-! # Delayed rejection keeps the posterior: the integral identity

Paths are functions `ℕ → (Fin n → ℝ)`; only finitely many values of a path matter in each statement. -/

namespace Verif
open MeasureTheory Finset Function
open scoped ENNReal Matrix
variable {n : ℕ}

attribute [local irreducible] gauss propDensity

/-- the point of parameter space with values `x` if `lp` is the log posterior, `none` outside the limits -/
def pointAt (lp : (Fin n → ℝ) → Option ℝ) (x : Fin n → ℝ) : Point n := ⟨x, lp x⟩

/-- acceptance probability of the last of the proposals `P 1, …, P (l + 1)` from `P 0` -/
noncomputable def alphaAt (W : ℕ → Fin n → Fin n → ℝ) (lp : (Fin n → ℝ) → Option ℝ) (l : ℕ)
    (P : ℕ → Fin n → ℝ) : ℝ :=
  drAlpha W l fun i => pointAt lp (P i)

theorem gauss_nonneg (W : Fin n → Fin n → ℝ) (x y : Fin n → ℝ) : 0 ≤ gauss W x y := by
  unfold gauss; exact (Real.exp_pos _).le

section
variable {W : ℕ → Fin n → Fin n → ℝ} {lp : (Fin n → ℝ) → Option ℝ} {A : ℕ → Matrix (Fin n) (Fin n) ℝ}

theorem alphaAt_nonneg (l : ℕ) (P : ℕ → Fin n → ℝ) : 0 ≤ alphaAt W lp l P := drAlpha_nonneg _ _ _
theorem alphaAt_le_one (l : ℕ) (P : ℕ → Fin n → ℝ) : alphaAt W lp l P ≤ 1 := drAlpha_le_one _ _ _

theorem alphaAt_congr {l : ℕ} {P Q : ℕ → Fin n → ℝ} (h : ∀ i ≤ l + 1, P i = Q i) :
    alphaAt W lp l P = alphaAt W lp l Q :=
  drAlpha_congr W l fun i hi => by rw [h i hi]

theorem alphaAt_outside {l : ℕ} {P : ℕ → Fin n → ℝ} (h : lp (P (l + 1)) = none) : alphaAt W lp l P = 0 := by
  unfold alphaAt
  rw [drAlpha]
  simp [pointAt, h, Point.density]

theorem measurable_alphaAt (hd : Measurable fun x => (pointAt lp x).density) (l : ℕ) :
    Measurable (alphaAt W lp l) := by
  induction l using Nat.strong_induction_on with
  | _ l ih =>
    have e : alphaAt W lp l = fun P => min 1 (((pointAt lp (P (l + 1))).density *
        (∏ k ∈ range (l + 1), gauss (W k) (P (l + 1)) (P (l - k))) *
        ∏ k : Fin l, (1 - alphaAt W lp k fun i => P (l + 1 - i))) /
      ((pointAt lp (P 0)).density * (∏ k ∈ range (l + 1), gauss (W k) (P 0) (P (k + 1))) *
        ∏ k : Fin l, (1 - alphaAt W lp k P))) := by
      funext P
      unfold alphaAt
      rw [drAlpha]
      rfl
    rw [e]
    have h1 : ∀ i, Measurable fun P : ℕ → Fin n → ℝ => (pointAt lp (P i)).density := fun i =>
      hd.comp (measurable_pi_apply i)
    have h2 : ∀ k i j, Measurable fun P : ℕ → Fin n → ℝ => gauss (W k) (P i) (P j) := fun k i j =>
      measurable_gauss (W k) (measurable_pi_apply i) (measurable_pi_apply j)
    have h3 : Measurable fun (P : ℕ → Fin n → ℝ) (i : ℕ) => P (l + 1 - i) :=
      measurable_pi_iff.2 fun i => measurable_pi_apply _
    refine measurable_const.min (Measurable.div ?_ ?_)
    · refine ((h1 _).mul (Finset.measurable_prod _ fun k _ => h2 _ _ _)).mul
        (Finset.measurable_prod _ fun k _ => measurable_const.sub ?_)
      exact (ih k k.isLt).comp h3
    · exact ((h1 _).mul (Finset.measurable_prod _ fun k _ => h2 _ _ _)).mul
        (Finset.measurable_prod _ fun k _ => measurable_const.sub (ih k k.isLt))

/-- weight of the path `P 0, …, P l` with all of `P 1, …, P l` rejected -/
noncomputable def pathWeight (A : ℕ → Matrix (Fin n) (Fin n) ℝ) (W : ℕ → Fin n → Fin n → ℝ)
    (lp : (Fin n → ℝ) → Option ℝ) (l : ℕ) (P : ℕ → Fin n → ℝ) : ℝ≥0∞ :=
  ENNReal.ofReal (pointAt lp (P 0)).density *
    ∏ k ∈ range l, (propDensity (A k) (W k) (P 0) (P (k + 1)) * ENNReal.ofReal (1 - alphaAt W lp k P))

theorem measurable_propDensity_path (k i j : ℕ) :
    Measurable fun P : ℕ → Fin n → ℝ => propDensity (A k) (W k) (P i) (P j) :=
  measurable_propDensity (A k) (W k) (measurable_pi_apply i) (measurable_pi_apply j)

theorem measurable_pathWeight (hd : Measurable fun x => (pointAt lp x).density) (l : ℕ) :
    Measurable (pathWeight A W lp l) := by
  unfold pathWeight
  exact (hd.comp (measurable_pi_apply 0)).ennreal_ofReal.mul (Finset.measurable_prod _ fun k _ =>
    (measurable_propDensity_path _ _ _).mul (measurable_const.sub (measurable_alphaAt hd k)).ennreal_ofReal)

theorem pathWeight_congr {l : ℕ} {P Q : ℕ → Fin n → ℝ} (h : ∀ i ≤ l, P i = Q i) :
    pathWeight A W lp l P = pathWeight A W lp l Q := by
  unfold pathWeight
  rw [h 0 (Nat.zero_le _)]
  congr 1
  refine prod_congr rfl fun k hk => ?_
  rw [mem_range] at hk
  rw [h (k + 1) hk, alphaAt_congr fun i hi => h i (by omega)]

theorem pathWeight_succ (l : ℕ) (P : ℕ → Fin n → ℝ) : pathWeight A W lp (l + 1) P =
    pathWeight A W lp l P *
      (propDensity (A l) (W l) (P 0) (P (l + 1)) * ENNReal.ofReal (1 - alphaAt W lp l P)) := by
  unfold pathWeight
  rw [prod_range_succ, mul_assoc]

/-- The weight of a path with its last proposal accepted is that of the path run backwards. -/
theorem pathWeight_balance (l : ℕ) (P : ℕ → Fin n → ℝ) :
    pathWeight A W lp l P * (propDensity (A l) (W l) (P 0) (P (l + 1)) * ENNReal.ofReal (alphaAt W lp l P)) =
      pathWeight A W lp l (fun i => P (l + 1 - i)) *
        (propDensity (A l) (W l) (P (l + 1)) (P 0) *
          ENNReal.ofReal (alphaAt W lp l fun i => P (l + 1 - i))) := by
  have key : ∀ Q : ℕ → Fin n → ℝ, pathWeight A W lp l Q *
      (propDensity (A l) (W l) (Q 0) (Q (l + 1)) * ENNReal.ofReal (alphaAt W lp l Q)) =
      (∏ k ∈ range (l + 1), gaussConst (A k)) * ENNReal.ofReal (pathDensity W l fun i => pointAt lp (Q i)) := by
    intro Q
    have hg : ∀ k, 0 ≤ gauss (W k) (Q 0) (Q (k + 1)) := fun k => gauss_nonneg _ _ _
    have ha : ∀ k, 0 ≤ 1 - alphaAt W lp k Q := fun k => sub_nonneg.2 (alphaAt_le_one _ _)
    unfold pathWeight pathDensity propDensity
    rw [ENNReal.ofReal_mul, ENNReal.ofReal_mul, ENNReal.ofReal_mul (Point.density_nonneg _),
      ENNReal.ofReal_prod_of_nonneg (f := fun k => gauss (W k) _ _) fun k _ => gauss_nonneg _ _ _,
      ENNReal.ofReal_prod_of_nonneg fun k _ => sub_nonneg.2 (drAlpha_le_one _ _ _),
      prod_range_succ, prod_range_succ, prod_mul_distrib, prod_mul_distrib,
      ← Finset.prod_range fun k => ENNReal.ofReal (1 - drAlpha W k fun i => pointAt lp (Q i))]
    · simp only [alphaAt, pointAt]
      ring
    · exact mul_nonneg (Point.density_nonneg _) (prod_nonneg fun k _ => gauss_nonneg _ _ _)
    · exact mul_nonneg (mul_nonneg (Point.density_nonneg _) (prod_nonneg fun k _ => gauss_nonneg _ _ _))
        (prod_nonneg fun k _ => sub_nonneg.2 (drAlpha_le_one _ _ _))
  have h2 := key fun i => P (l + 1 - i)
  simp only [Nat.sub_zero, Nat.sub_self] at h2
  rw [key P, h2, drAlpha_balance]

/-- Expected value of `g` at the point reached when after the path `P 0, …, P l` with all proposals
rejected another `r` stages may follow. -/
noncomputable def expectAfter (A : ℕ → Matrix (Fin n) (Fin n) ℝ) (W : ℕ → Fin n → Fin n → ℝ)
    (lp : (Fin n → ℝ) → Option ℝ) (g : (Fin n → ℝ) → ℝ≥0∞) : (r l : ℕ) → (ℕ → Fin n → ℝ) → ℝ≥0∞
  | 0, _, P => g (P 0)
  | r + 1, l, P => ∫⁻ y, propDensity (A l) (W l) (P 0) y *
      (ENNReal.ofReal (alphaAt W lp l (update P (l + 1) y)) * g y +
        ENNReal.ofReal (1 - alphaAt W lp l (update P (l + 1) y)) *
          expectAfter A W lp g r (l + 1) (update P (l + 1) y))

theorem measurable_update_path (j : ℕ) :
    Measurable fun p : (ℕ → Fin n → ℝ) × (Fin n → ℝ) => update p.1 j p.2 := by
  refine measurable_pi_iff.2 fun i => ?_
  by_cases h : i = j
  · subst h
    simpa using measurable_snd
  · simp only [update_of_ne h]
    exact (measurable_pi_apply i).comp measurable_fst

theorem measurable_expectAfter (hd : Measurable fun x => (pointAt lp x).density) {g : (Fin n → ℝ) → ℝ≥0∞}
    (hg : Measurable g) (r : ℕ) : ∀ l, Measurable (expectAfter A W lp g r l) := by
  induction r with
  | zero => exact fun l => hg.comp (measurable_pi_apply 0)
  | succ r ih =>
    intro l
    change Measurable fun P => ∫⁻ y, propDensity (A l) (W l) (P 0) y *
      (ENNReal.ofReal (alphaAt W lp l (update P (l + 1) y)) * g y +
        ENNReal.ofReal (1 - alphaAt W lp l (update P (l + 1) y)) *
          expectAfter A W lp g r (l + 1) (update P (l + 1) y))
    refine Measurable.lintegral_prod_right' (f := fun p : (ℕ → Fin n → ℝ) × (Fin n → ℝ) =>
      propDensity (A l) (W l) (p.1 0) p.2 *
      (ENNReal.ofReal (alphaAt W lp l (update p.1 (l + 1) p.2)) * g p.2 +
        ENNReal.ofReal (1 - alphaAt W lp l (update p.1 (l + 1) p.2)) *
          expectAfter A W lp g r (l + 1) (update p.1 (l + 1) p.2))) ?_
    have hu := measurable_update_path (n := n) (l + 1)
    have ha := (measurable_alphaAt (W := W) hd l).comp hu
    refine (measurable_propDensity (A l) (W l) ((measurable_pi_apply 0).comp measurable_fst)
      measurable_snd).mul
      ((ha.ennreal_ofReal.mul (hg.comp measurable_snd)).add
        ((measurable_const.sub ha).ennreal_ofReal.mul ((ih (l + 1)).comp hu)))

/-- the positions `0, …, l + 1` in reversed order -/
def flip (l i : ℕ) : ℕ := if i ≤ l + 1 then l + 1 - i else i

theorem flip_injective (l : ℕ) : Injective (flip l) := by
  intro a b h
  unfold flip at h
  split_ifs at h <;> omega

theorem image_flip (l : ℕ) : (range (l + 2)).image (flip l) = range (l + 2) := by
  ext i
  simp only [mem_image, mem_range]
  constructor
  · rintro ⟨j, hj, rfl⟩
    unfold flip
    rw [if_pos (by omega)]; omega
  · intro hi
    exact ⟨l + 1 - i, by omega, by unfold flip; rw [if_pos (by omega)]; omega⟩

/-- all points of a path integrated out: the order of the points does not matter -/
theorem lmarginal_flip (l : ℕ) {f : (ℕ → Fin n → ℝ) → ℝ≥0∞} (hf : Measurable f)
    (hloc : ∀ P Q : ℕ → Fin n → ℝ, (∀ i ≤ l + 1, P i = Q i) → f P = f Q) (x : ℕ → Fin n → ℝ) :
    (∫⋯∫⁻_range (l + 2), (fun P => f fun i => P (l + 1 - i))) x = (∫⋯∫⁻_range (l + 2), f) x := by
  have h := lmarginal_image (μ := fun _ : ℕ => (volume : Measure (Fin n → ℝ))) (flip_injective l)
    (range (l + 2)) hf x
  rw [image_flip] at h
  have e : (f ∘ fun P : ℕ → Fin n → ℝ => fun i => P (flip l i)) = fun P => f fun i => P (l + 1 - i) := by
    funext P
    refine hloc _ _ fun i hi => ?_
    simp only [flip, if_pos hi]
  rw [← e]
  refine h.trans ?_
  refine lmarginal_congr _ f fun i hi => ?_
  rw [mem_range] at hi
  change x (flip l i) = x i
  unfold flip
  rw [if_neg (by omega)]

/-- **Delayed rejection keeps the posterior.** -/
theorem expectAfter_invariant (hd : Measurable fun x => (pointAt lp x).density) {K : ℕ}
    (hAW : ∀ k < K, A k * Matrix.of (W k) = 1) {g : (Fin n → ℝ) → ℝ≥0∞}
    (hg : Measurable g) (r : ℕ) : ∀ l, l + r ≤ K → ∀ x : ℕ → Fin n → ℝ,
    (∫⋯∫⁻_range (l + 1), fun P => pathWeight A W lp l P * expectAfter A W lp g r l P) x =
      (∫⋯∫⁻_range (l + 1), fun P => pathWeight A W lp l P * g (P 0)) x := by
  induction r with
  | zero => intro l _ x; rfl
  | succ r ih =>
    intro l hl x
    have hw := measurable_pathWeight (A := A) (W := W) hd l
    have ha := measurable_alphaAt (W := W) hd l
    have hq : Measurable fun P : ℕ → Fin n → ℝ => propDensity (A l) (W l) (P 0) (P (l + 1)) :=
      measurable_propDensity_path _ _ _
    have hH := measurable_expectAfter (A := A) (W := W) hd hg r (l + 1)
    have hnot : l + 1 ∉ range (l + 1) := by simp
    -- the part of the last proposal accepted
    let B : (ℕ → Fin n → ℝ) → ℝ≥0∞ := fun P => pathWeight A W lp l P *
      (propDensity (A l) (W l) (P 0) (P (l + 1)) * ENNReal.ofReal (alphaAt W lp l P))
    have hB : Measurable B := hw.mul (hq.mul ha.ennreal_ofReal)
    have hupd0 : ∀ (P : ℕ → Fin n → ℝ) y, update P (l + 1) y 0 = P 0 := fun P y => by simp
    have hwu : ∀ (P : ℕ → Fin n → ℝ) y, pathWeight A W lp l (update P (l + 1) y) = pathWeight A W lp l P :=
      fun P y => pathWeight_congr fun i hi => by rw [update_of_ne (by omega)]
    have hlhs : (∫⋯∫⁻_range (l + 1), fun P => pathWeight A W lp l P * expectAfter A W lp g (r + 1) l P) =
        ∫⋯∫⁻_range (l + 2), fun P => B P * g (P (l + 1)) +
          pathWeight A W lp (l + 1) P * expectAfter A W lp g r (l + 1) P := by
      rw [show range (l + 2) = insert (l + 1) (range (l + 1)) from range_add_one, lmarginal_insert' _ _ hnot]
      · congr 1
        funext P
        rw [expectAfter, ← lintegral_const_mul]
        · refine lintegral_congr fun y => ?_
          simp only [B, pathWeight_succ, hwu, hupd0, update_self]
          ring
        · have hu : Measurable fun y : Fin n → ℝ => update P (l + 1) y :=
            (measurable_update_path (l + 1)).comp (measurable_const.prodMk measurable_id)
          have hq' : Measurable fun y : Fin n → ℝ => propDensity (A l) (W l) (P 0) y :=
            measurable_propDensity (A l) (W l) measurable_const measurable_id
          exact hq'.mul (((ha.comp hu).ennreal_ofReal.mul hg).add
            ((measurable_const.sub (ha.comp hu)).ennreal_ofReal.mul (hH.comp hu)))
      · exact (hB.mul (hg.comp (measurable_pi_apply _))).add ((measurable_pathWeight hd _).mul hH)
    have hrhs : (∫⋯∫⁻_range (l + 1), fun P => pathWeight A W lp l P * g (P 0)) =
        ∫⋯∫⁻_range (l + 2), fun P => B P * g (P 0) + pathWeight A W lp (l + 1) P * g (P 0) := by
      rw [show range (l + 2) = insert (l + 1) (range (l + 1)) from range_add_one, lmarginal_insert' _ _ hnot]
      · congr 1
        funext P
        have e : ∀ y, B (update P (l + 1) y) * g (update P (l + 1) y 0) +
            pathWeight A W lp (l + 1) (update P (l + 1) y) * g (update P (l + 1) y 0) =
            pathWeight A W lp l P * g (P 0) * propDensity (A l) (W l) (P 0) y := by
          intro y
          simp only [B, pathWeight_succ, hwu, hupd0, update_self]
          have hone : ENNReal.ofReal (alphaAt W lp l (update P (l + 1) y)) +
              ENNReal.ofReal (1 - alphaAt W lp l (update P (l + 1) y)) = 1 := by
            rw [← ENNReal.ofReal_add (alphaAt_nonneg _ _) (sub_nonneg.2 (alphaAt_le_one _ _))]
            simp
          calc _ = pathWeight A W lp l P * g (P 0) * propDensity (A l) (W l) (P 0) y *
              (ENNReal.ofReal (alphaAt W lp l (update P (l + 1) y)) +
              ENNReal.ofReal (1 - alphaAt W lp l (update P (l + 1) y))) := by ring
            _ = _ := by rw [hone, mul_one]
        simp only [e]
        rw [lintegral_const_mul _ (show Measurable fun y => propDensity (A l) (W l) (P 0) y from
          measurable_propDensity (A l) (W l) measurable_const measurable_id), lintegral_propDensity (hAW l (by omega)), mul_one]
      · exact (hB.mul (hg.comp (measurable_pi_apply _))).add
          ((measurable_pathWeight hd _).mul (hg.comp (measurable_pi_apply _)))
    have hadd : ∀ {f₁ f₂ : (ℕ → Fin n → ℝ) → ℝ≥0∞}, Measurable f₁ →
        (∫⋯∫⁻_range (l + 2), fun P => f₁ P + f₂ P) x =
        (∫⋯∫⁻_range (l + 2), f₁) x + (∫⋯∫⁻_range (l + 2), f₂) x := by
      intro f₁ f₂ h₁
      unfold lmarginal
      exact lintegral_add_left (h₁.comp measurable_updateFinset) _
    have hBg : ∀ i, Measurable fun P => B P * g (P i) := fun i => hB.mul (hg.comp (measurable_pi_apply i))
    rw [hlhs, hrhs, hadd (hBg (l + 1)), hadd (hBg 0), ih (l + 1) (by omega) x]
    congr 1
    rw [← lmarginal_flip l (f := fun P => B P * g (P 0)) (hBg 0)]
    · congr 1
      congr 1
      funext P
      simp only [B, Nat.sub_zero, Nat.sub_self]
      rw [pathWeight_balance]
    · intro P Q h
      simp only [B]
      rw [pathWeight_congr fun i hi => h i (by omega), alphaAt_congr h, h 0 (by omega), h (l + 1) le_rfl]

/-- the case of a whole iteration with `K` stages -/
theorem expectAfter_start (hd : Measurable fun x => (pointAt lp x).density) {K : ℕ}
    (hAW : ∀ k < K, A k * Matrix.of (W k) = 1) {g : (Fin n → ℝ) → ℝ≥0∞}
    (hg : Measurable g) (P : ℕ → Fin n → ℝ) :
    ∫⁻ x, ENNReal.ofReal (pointAt lp x).density * expectAfter A W lp g K 0 (update P 0 x) =
      ∫⁻ x, ENNReal.ofReal (pointAt lp x).density * g x := by
  have h := expectAfter_invariant (A := A) (W := W) hd hAW hg K 0 (by omega) P
  rw [show range (0 + 1) = {0} from rfl, lmarginal_singleton, lmarginal_singleton] at h
  simpa [pathWeight] using h

end

end Verif
