import Verif.Lemmas.AdaptiveMove
import Verif.Lemmas.Ergodic

/-! # Convergence of a chain whose transitions settle -/

namespace Verif
open MeasureTheory Function
open scoped ENNReal

variable {X M σ : Type} [MeasurableSpace X] [MeasurableSpace M] [MeasurableSpace σ] {μ : Measure σ}
  [IsProbabilityMeasure μ] {T : M → X × σ → X × σ} {next : ℕ → (ℕ → X × M) → M} {x : X} {R : M}

theorem measurable_iterate_factor (hT : Measurable fun p : M × X × σ => T p.1 p.2) (l : ℕ) :
    Measurable fun p : M × X × σ => (T p.1)^[l] p.2 := by
  induction l with
  | zero => exact measurable_snd
  | succ l ih =>
    simp only [iterate_succ_apply']
    exact hT.comp (measurable_fst.prodMk ih)

theorem measurable_expect_factor (hT : Measurable fun p : M × X × σ => T p.1 p.2) (l : ℕ) {f : X → ℝ≥0∞}
    (hf : Measurable f) : Measurable fun p : M × X => expect μ (T p.1) l f p.2 := by
  refine Measurable.lintegral_prod_right' (f := fun p : (M × X) × σ => f ((T p.1.1)^[l] (p.1.2, p.2)).1) ?_
  have h : Measurable fun p : (M × X) × σ => (T p.1.1)^[l] (p.1.2, p.2) :=
    (measurable_iterate_factor hT l).comp ((measurable_fst.comp measurable_fst).prodMk
      ((measurable_snd.comp measurable_fst).prodMk measurable_snd))
  exact hf.comp (measurable_fst.comp h)

/-- The integral over a function of the history and the next row. -/
theorem histAfter_next (hT : Measurable fun p : M × X × σ => T p.1 p.2) (hf : ∀ R, Fresh μ (T R))
    (hn : ∀ j, Measurable (next j)) (x : X) (R : M) (j : ℕ) {F : (ℕ → X × M) × X → ℝ≥0∞} (hF : Measurable F) :
    ∫⁻ s, F ((histAfter T next x R j s).1, ((histAfter T next x R (j + 1) s).1 (j + 1)).1) ∂μ =
      ∫⁻ s, expect μ (T ((histAfter T next x R j s).1 j).2) 1 (fun y => F ((histAfter T next x R j s).1, y))
        ((histAfter T next x R j s).1 j).1 ∂μ := by
  have h0 : Measurable fun p : (ℕ → X × M) × σ => p.1 j := (measurable_pi_apply j).comp measurable_fst
  have h1 : Measurable fun p : (ℕ → X × M) × σ => F (p.1, (T (p.1 j).2 ((p.1 j).1, p.2)).1) :=
    hF.comp (measurable_fst.prodMk (measurable_fst.comp (hT.comp ((measurable_snd.comp h0).prodMk
      ((measurable_fst.comp h0).prodMk measurable_snd)))))
  have e := (histAfter_fresh hT hf hn x R j).2 _ h1
  refine Eq.trans ?_ e
  refine lintegral_congr fun s => ?_
  simp only [histAfter, histStep, update_self]

/-- **Convergence of a chain whose transitions settle.**  Let `V` be a weight decided at time `j0`. If, where it is
not zero, all transitions of the next `K` iterations are near the transition for one factor `S`, and that
transition comes near to `π` in `K` steps, then row `j0 + K` has under the weight nearly the law `π`. -/
theorem settled_weighted (hT : Measurable fun p : M × X × σ => T p.1 p.2) (hf : ∀ R, Fresh μ (T R))
    (hn : ∀ j, Measurable (next j)) (x : X) (R : M) (j0 K : ℕ)
    {V : (ℕ → X × M) → ℝ≥0∞} (hV : Measurable V) (hV1 : ∀ h, V h ≤ 1)
    (hV0 : ∀ h h' : ℕ → X × M, (∀ i ≤ j0, h i = h' i) → V h = V h')
    {S : (ℕ → X × M) → M} (hS : Measurable S) (hS0 : ∀ h h' : ℕ → X × M, (∀ i ≤ j0, h i = h' i) → S h = S h')
    {κ : ℝ} (hκ0 : 0 ≤ κ) (hκ1 : κ ≤ 1)
    (hclose : ∀ j, j0 ≤ j → j < j0 + K → ∀ s, V (histAfter T next x R j s).1 ≠ 0 →
      ∀ g : X → ℝ≥0∞, Measurable g → (∀ y, g y ≤ 1) →
      expect μ (T (S (histAfter T next x R j s).1)) 1 g ((histAfter T next x R j s).1 j).1 + ENNReal.ofReal κ ≤
        expect μ (T ((histAfter T next x R j s).1 j).2) 1 g ((histAfter T next x R j s).1 j).1 + 1 ∧
      expect μ (T ((histAfter T next x R j s).1 j).2) 1 g ((histAfter T next x R j s).1 j).1 + ENNReal.ofReal κ ≤
        expect μ (T (S (histAfter T next x R j s).1)) 1 g ((histAfter T next x R j s).1 j).1 + 1)
    {f : X → ℝ≥0∞} (hb : Measurable f) (hb1 : ∀ y, f y ≤ 1) {η p : ℝ} (hη : 0 ≤ η)
    (hmix : ∀ s, V (histAfter T next x R j0 s).1 ≠ 0 →
      |(expect μ (T (S (histAfter T next x R j0 s).1)) K f ((histAfter T next x R j0 s).1 j0).1).toReal - p| ≤ η) :
    |(∫⁻ s, V (histAfter T next x R j0 s).1 * f ((histAfter T next x R (j0 + K) s).1 (j0 + K)).1 ∂μ).toReal -
        p * (∫⁻ s, V (histAfter T next x R j0 s).1 ∂μ).toReal| ≤ K * (1 - κ) + η := by
  set Hs := histAfter T next x R with hHs
  have hm := fun j => (histAfter_fresh hT hf hn x R j).1
  have hmh : ∀ j, Measurable fun s => (Hs j s).1 := fun j => measurable_fst.comp (hm j)
  have hmr : ∀ j, Measurable fun s => ((Hs j s).1 j).1 := fun j =>
    measurable_fst.comp ((measurable_pi_apply j).comp (hmh j))
  have hagree : ∀ {i j : ℕ}, i ≤ j → ∀ s, ∀ k ≤ i, (Hs j s).1 k = (Hs i s).1 k := by
    intro i j hij s k hk
    rw [hHs, histAfter_stable (hk.trans hij) s, histAfter_stable hk s]
  have hVj : ∀ j, j0 ≤ j → ∀ s, V (Hs j s).1 = V (Hs j0 s).1 := fun j hj s => hV0 _ _ (hagree hj s)
  have hSj : ∀ j, j0 ≤ j → ∀ s, S (Hs j s).1 = S (Hs j0 s).1 := fun j hj s => hS0 _ _ (hagree hj s)
  have hVm : Measurable fun s => V (Hs j0 s).1 := hV.comp (hmh j0)
  set m := ∫⁻ s, V (Hs j0 s).1 ∂μ with hmdef
  have hmle : m ≤ 1 := by
    calc m ≤ ∫⁻ _, 1 ∂μ := lintegral_mono fun s => hV1 _
      _ = 1 := by simp
  have hmt : m ≠ ⊤ := ne_top_of_le_ne_top ENNReal.one_ne_top hmle
  -- expected value of the remaining steps with factor `S`
  let a : ℕ → ℝ≥0∞ := fun i => ∫⁻ s, V (Hs j0 s).1 * expect μ (T (S (Hs j0 s).1)) (K - i) f
    ((Hs (j0 + i) s).1 (j0 + i)).1 ∂μ
  have ha1 : ∀ i, a i ≤ m := fun i => lintegral_mono fun s => mul_le_of_le_one_right zero_le (expect_le_one hb1 _ _)
  have hat : ∀ i, a i ≠ ⊤ := fun i => ne_top_of_le_ne_top hmt (ha1 i)
  have hme : ∀ i l, Measurable fun s => expect μ (T (S (Hs j0 s).1)) l f ((Hs (j0 + i) s).1 (j0 + i)).1 := fun i l =>
    (measurable_expect_factor hT l hb).comp ((hS.comp (hmh j0)).prodMk (hmr (j0 + i)))
  have hstep : ∀ i < K, a i + ENNReal.ofReal κ * m ≤ a (i + 1) + m ∧ a (i + 1) + ENNReal.ofReal κ * m ≤ a i + m := by
    intro i hi
    -- the next row, given the history
    have e1 : a (i + 1) = ∫⁻ s, V (Hs (j0 + i) s).1 * expect μ (T ((Hs (j0 + i) s).1 (j0 + i)).2) 1
        (expect μ (T (S (Hs (j0 + i) s).1)) (K - (i + 1)) f) ((Hs (j0 + i) s).1 (j0 + i)).1 ∂μ := by
      let F : (ℕ → X × M) × X → ℝ≥0∞ := fun p => V p.1 * expect μ (T (S p.1)) (K - (i + 1)) f p.2
      have hF : Measurable F := (hV.comp measurable_fst).mul
        ((measurable_expect_factor hT _ hb).comp ((hS.comp measurable_fst).prodMk measurable_snd))
      have := histAfter_next hT hf hn x R (j0 + i) hF
      change ∫⁻ s, F ((Hs (j0 + i) s).1, ((Hs (j0 + i + 1) s).1 (j0 + i + 1)).1) ∂μ =
        ∫⁻ s, expect μ (T ((Hs (j0 + i) s).1 (j0 + i)).2) 1 (fun y => F ((Hs (j0 + i) s).1, y))
          ((Hs (j0 + i) s).1 (j0 + i)).1 ∂μ at this
      refine Eq.trans (lintegral_congr fun s => ?_) (this.trans (lintegral_congr fun s => ?_))
      · simp only [F, hSj (j0 + i) (by omega), hVj (j0 + i) (by omega)]
        rfl
      · simp only [F]
        unfold expect
        rw [lintegral_const_mul]
        exact (measurable_expect (hf _) _ hb).comp ((hf _).measurable_row 1 _)
    have e0 : a i = ∫⁻ s, V (Hs (j0 + i) s).1 * expect μ (T (S (Hs (j0 + i) s).1)) 1
        (expect μ (T (S (Hs (j0 + i) s).1)) (K - (i + 1)) f) ((Hs (j0 + i) s).1 (j0 + i)).1 ∂μ := by
      simp only [a]
      refine lintegral_congr fun s => ?_
      rw [hSj (j0 + i) (by omega), hVj (j0 + i) (by omega), ← expect_add (hf _) 1 _ hb]
      congr 2
      omega
    have hcl := fun s (hs : V (Hs (j0 + i) s).1 ≠ 0) => hclose (j0 + i) (by omega) (by omega) s hs
      (expect μ (T (S (Hs (j0 + i) s).1)) (K - (i + 1)) f) (measurable_expect (hf _) _ hb)
      fun y => expect_le_one hb1 _ y
    have hm' : m = ∫⁻ s, V (Hs (j0 + i) s).1 ∂μ := lintegral_congr fun s => (hVj _ (by omega) s).symm
    have hVm' : Measurable fun s => V (Hs (j0 + i) s).1 := hV.comp (hmh _)
    rw [e0, e1, hm', ← lintegral_const_mul _ hVm']
    constructor
    · rw [← lintegral_add_right _ (hVm'.const_mul _), ← lintegral_add_right _ hVm']
      refine lintegral_mono fun s => ?_
      by_cases hs : V (Hs (j0 + i) s).1 = 0
      · simp [hs]
      · have := mul_le_mul_right (hcl s hs).1 (V (Hs (j0 + i) s).1)
        rwa [mul_add, mul_add, mul_one, mul_comm _ (ENNReal.ofReal κ)] at this
    · rw [← lintegral_add_right _ (hVm'.const_mul _), ← lintegral_add_right _ hVm']
      refine lintegral_mono fun s => ?_
      by_cases hs : V (Hs (j0 + i) s).1 = 0
      · simp [hs]
      · have := mul_le_mul_right (hcl s hs).2 (V (Hs (j0 + i) s).1)
        rwa [mul_add, mul_add, mul_one, mul_comm _ (ENNReal.ofReal κ)] at this
  have hm1 : m.toReal ≤ 1 := ENNReal.toReal_le_of_le_ofReal one_pos.le (by simpa using hmle)
  have hm0 : 0 ≤ m.toReal := ENNReal.toReal_nonneg
  have hstepR : ∀ i < K, |(a (i + 1)).toReal - (a i).toReal| ≤ 1 - κ := by
    intro i hi
    obtain ⟨h1, h2⟩ := hstep i hi
    have c1 : ENNReal.ofReal κ * m ≠ ⊤ := ENNReal.mul_ne_top ENNReal.ofReal_ne_top hmt
    have k1 := ENNReal.toReal_mono (ENNReal.add_ne_top.2 ⟨hat _, hmt⟩) h1
    have k2 := ENNReal.toReal_mono (ENNReal.add_ne_top.2 ⟨hat _, hmt⟩) h2
    rw [ENNReal.toReal_add (hat _) c1, ENNReal.toReal_add (hat _) hmt, ENNReal.toReal_mul,
      ENNReal.toReal_ofReal hκ0] at k1 k2
    have : m.toReal - κ * m.toReal ≤ 1 - κ := by nlinarith
    rw [abs_le]
    constructor <;> linarith
  have hsum : ∀ i ≤ K, |(a i).toReal - (a 0).toReal| ≤ i * (1 - κ) := by
    intro i
    induction i with
    | zero => intro _; simp
    | succ i ih =>
      intro hi
      have h1 := ih (by omega)
      have h2 := hstepR i (by omega)
      have h3 := abs_sub_le (a (i + 1)).toReal (a i).toReal (a 0).toReal
      push_cast
      linarith
  -- the start
  have hstart : |(a 0).toReal - p * m.toReal| ≤ η := by
    have hVR : Integrable (fun s => (V (Hs j0 s).1).toReal) μ := by
      refine Integrable.of_bound (C := 1) hVm.ennreal_toReal.aestronglyMeasurable (Filter.Eventually.of_forall fun s => ?_)
      rw [Real.norm_of_nonneg ENNReal.toReal_nonneg]
      exact ENNReal.toReal_le_of_le_ofReal one_pos.le (by simpa using hV1 _)
    have hint : Integrable (fun s => (V (Hs j0 s).1 *
        expect μ (T (S (Hs j0 s).1)) K f ((Hs j0 s).1 j0).1).toReal) μ := by
      refine Integrable.of_bound (C := 1) ((hVm.mul (hme 0 K)).ennreal_toReal).aestronglyMeasurable
        (Filter.Eventually.of_forall fun s => ?_)
      rw [Real.norm_of_nonneg ENNReal.toReal_nonneg]
      exact ENNReal.toReal_le_of_le_ofReal one_pos.le (by simpa using mul_le_one' (hV1 _) (expect_le_one hb1 K _))
    have e1 : (a 0).toReal = ∫ s, (V (Hs j0 s).1 * expect μ (T (S (Hs j0 s).1)) K f ((Hs j0 s).1 j0).1).toReal ∂μ := by
      refine (integral_toReal (hVm.mul (hme 0 K)).aemeasurable ?_).symm
      exact Filter.Eventually.of_forall fun s =>
        lt_of_le_of_lt (mul_le_one' (hV1 _) (expect_le_one hb1 K _)) ENNReal.one_lt_top
    have e2 : p * m.toReal = ∫ s, p * (V (Hs j0 s).1).toReal ∂μ := by
      rw [integral_const_mul, integral_toReal hVm.aemeasurable
        (Filter.Eventually.of_forall fun s => lt_of_le_of_lt (hV1 _) ENNReal.one_lt_top)]
    rw [e1, e2, ← integral_sub hint (hVR.const_mul p)]
    have := norm_integral_le_of_norm_le_const (μ := μ)
      (f := fun s => (V (Hs j0 s).1 * expect μ (T (S (Hs j0 s).1)) K f ((Hs j0 s).1 j0).1).toReal -
        p * (V (Hs j0 s).1).toReal) (C := η) (Filter.Eventually.of_forall fun s => ?_)
    · rw [Real.norm_eq_abs] at this
      simpa using this
    · by_cases hs : V (Hs j0 s).1 = 0
      · simpa [hs] using hη
      · rw [ENNReal.toReal_mul, mul_comm p, ← mul_sub, norm_mul, Real.norm_of_nonneg ENNReal.toReal_nonneg,
          Real.norm_eq_abs]
        have h1 : (V (Hs j0 s).1).toReal ≤ 1 := ENNReal.toReal_le_of_le_ofReal one_pos.le (by simpa using hV1 _)
        calc _ ≤ 1 * η := mul_le_mul h1 (hmix s hs) (abs_nonneg _) zero_le_one
          _ = η := one_mul _
  -- the end
  have hend : a K = ∫⁻ s, V (Hs j0 s).1 * f ((Hs (j0 + K) s).1 (j0 + K)).1 ∂μ := by
    simp only [a, Nat.sub_self]
    refine lintegral_congr fun s => ?_
    simp only [expect, iterate_zero, id_eq, lintegral_const, measure_univ, mul_one]
  have hK := hsum K le_rfl
  rw [← hend]
  have := abs_sub_le (a K).toReal (a 0).toReal (p * m.toReal)
  linarith

end Verif
