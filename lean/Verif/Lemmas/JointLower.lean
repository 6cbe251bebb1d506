import Verif.Lemmas.MoveLower

/-! # Lower bounds for two iterations that also draw variances -/

namespace Verif
open MeasureTheory Finset Function ProbabilityTheory
open scoped ENNReal Matrix
variable {n m : ℕ} {σ : Type} [MeasurableSpace σ] {μ : Measure σ} [IsProbabilityMeasure μ] {G : Rng σ XR}

theorem Fresh.lintegral_comp {X : Type} [MeasurableSpace X] {T T' : X × σ → X × σ} (h : Fresh μ T)
    (h' : Fresh μ T') {g : X → ℝ≥0∞} (hg : Measurable g) (x : X) :
    ∫⁻ s, g (T' (T (x, s))).1 ∂μ = ∫⁻ s, ∫⁻ s', g (T' ((T (x, s)).1, s')).1 ∂μ ∂μ :=
  h.2 x (fun p => g (T' p).1) (hg.comp (measurable_fst.comp h'.1))

variable (D : IdealRng G n μ) {A : ℕ → Matrix (Fin n) (Fin n) ℝ} {W : ℕ → Fin n → Fin n → ℝ}
  {lp : (Fin m → ℝ) → (Fin n → ℝ) → Option ℝ} {b : (Fin n → ℝ) → Fin m → ℝ} {draw : σ → (Fin m → ℝ) × σ}
  {a : Fin m → ℝ} {S : Set (Fin n → ℝ)}

theorem varianceStep_expect (hb : Measurable b) (ha : ∀ j, 0 < a j)
    (hdraw : MeasurePreserving draw μ ((Measure.pi fun j => gammaMeasure (a j) 1).prod μ))
    {g : (Fin n → ℝ) × (Fin m → ℝ) → ℝ≥0∞} (hg : Measurable g) (x : (Fin n → ℝ) × (Fin m → ℝ))
    (hx : ∀ j, 0 < b x.1 j) :
    ∫⁻ s, g (varianceStep b draw (x, s)).1 ∂μ =
      ∫⁻ v, (∏ j, invGammaPDF (a j) (b x.1 j) (v j)) * g (x.1, v) := by
  have h := lintegral_varianceStep hb ha hdraw (g := fun p => g p.1) (hg.comp measurable_fst) x
  rw [h]
  simp only [lintegral_const, measure_univ, mul_one]
  exact lintegral_invGammas ha hx (h := fun v => g (x.1, v)) (hg.comp (measurable_const.prodMk measurable_id))

/-- From every start two iterations reach a set with at least a fixed multiple of its probability when the
values are uniform on `S` and the variances are drawn given the values. -/
theorem jointStep_lower
    (hd : Measurable fun p : (Fin m → ℝ) × (Fin n → ℝ) => (pointAt (lp p.1) p.2).density) {K : ℕ} (hK : 0 < K)
    (hAW : ∀ k < K, A k * Matrix.of (W k) = 1) (hb : Measurable b) (ha : ∀ j, 0 < a j)
    (hdraw : MeasurePreserving draw μ ((Measure.pi fun j => gammaMeasure (a j) 1).prod μ))
    (hSm : MeasurableSet S) (hS : ∀ v x, lp v x ≠ none ↔ x ∈ S) (hbS : ∀ x ∈ S, ∀ j, 0 < b x j)
    {C : ℝ} (hC : ∀ x ∈ S, ∀ y ∈ S, ∀ i, |y i - x i| ≤ C) {lo hi : ℝ} (hhi : 0 < hi)
    (hdens : ∀ v ∈ Set.Icc (1 : Fin m → ℝ) 2, ∀ y ∈ S,
      lo ≤ (pointAt (lp v) y).density ∧ (pointAt (lp v) y).density ≤ hi)
    {g0 : ℝ≥0∞} (hg0 : ∀ x ∈ S, ∀ v ∈ Set.Icc (1 : Fin m → ℝ) 2, g0 ≤ ∏ j, invGammaPDF (a j) (b x j) (v j))
    {g : (Fin n → ℝ) × (Fin m → ℝ) → ℝ≥0∞} (hg : Measurable g) (p : (Fin n → ℝ) × (Fin m → ℝ)) (hp : p.1 ∈ S) :
    g0 * (gaussConst (A 0) * ENNReal.ofReal (Real.exp (-(1 / 2) * ∑ j, (∑ i, C * |W 0 i j|) ^ 2)) *
        ENNReal.ofReal hi⁻¹ * (ENNReal.ofReal lo *
        ∫⁻ y in S, ∫⁻ v, (∏ j, invGammaPDF (a j) (b y j) (v j)) * g (y, v))) ≤
      ∫⁻ s, g ((varianceStep b draw ∘ moveStep D A W lp K)^[2] (p, s)).1 ∂μ := by
  have hfV : Fresh μ (varianceStep b draw) := fresh_varianceStep hb ha hdraw
  have hfM : Fresh μ (moveStep D A W lp K) := fresh_moveStep D hd hAW
  have hfT := hfV.comp hfM
  set c0 := gaussConst (A 0) * ENNReal.ofReal (Real.exp (-(1 / 2) * ∑ j, (∑ i, C * |W 0 i j|) ^ 2)) *
    ENNReal.ofReal hi⁻¹ with hc0
  -- variances given the values
  let h : (Fin n → ℝ) → ℝ≥0∞ := fun y => ∫⁻ v, (∏ j, invGammaPDF (a j) (b y j) (v j)) * g (y, v)
  have hh : Measurable h := by
    have h1 : Measurable fun z : (Fin n → ℝ) × (Fin m → ℝ) => ∏ j, invGammaPDF (a j) (b z.1 j) (z.2 j) :=
      Finset.measurable_prod _ fun j _ => (measurable_invGammaPDF (a j)).comp
        (((measurable_pi_apply j).comp (hb.comp measurable_fst)).prodMk
          ((measurable_pi_apply j).comp measurable_snd))
    exact (h1.mul hg).lintegral_prod_right'
  -- one iteration
  have step : ∀ z : (Fin n → ℝ) × (Fin m → ℝ), z.1 ∈ S → z.2 ∈ Set.Icc (1 : Fin m → ℝ) 2 →
      c0 * (ENNReal.ofReal lo * ∫⁻ y in S, h y) ≤
        ∫⁻ s, g ((varianceStep b draw ∘ moveStep D A W lp K) (z, s)).1 ∂μ := by
    intro z hz hzv
    have e : ∫⁻ s, g ((varianceStep b draw ∘ moveStep D A W lp K) (z, s)).1 ∂μ =
        ∫⁻ s, h (moveFrom D A W (lp z.2) K 0 (fun _ => z.1) s).1 ∂μ := by
      simp only [comp_apply]
      rw [hfM.lintegral_comp hfV hg z]
      refine lintegral_congr fun s => ?_
      have hin : (moveFrom D A W (lp z.2) K 0 (fun _ => z.1) s).1 ∈ S :=
        (hS z.2 _).1 (moveFrom_mem D K 0 (fun _ => z.1) s ((hS z.2 _).2 hz))
      exact varianceStep_expect hb ha hdraw hg (moveStep D A W lp K (z, s)).1 (hbS _ hin)
    rw [e]
    have hl := section_density hd z.2
    have hlow := moveFrom_posterior_lower D (A := A) (W := W) (lp := lp z.2) hl hK hAW (M := hi) (C := C)
      (fun y => by
        by_cases hy : y ∈ S
        · exact (hdens z.2 hzv y hy).2
        · have hn : lp z.2 y = none := by
            by_contra hh
            exact hy ((hS _ _).1 hh)
          have : (pointAt (lp z.2) y).density = 0 := by simp [pointAt, Point.density, hn]
          rw [this]; exact hhi.le)
      (fun x y hx hy => hC x ((hS _ _).1 hx) y ((hS _ _).1 hy)) hh ((hS z.2 z.1).2 hz)
    refine le_trans ?_ hlow
    rw [← hc0]
    refine mul_le_mul_right ?_ _
    rw [← lintegral_const_mul _ hh, ← lintegral_indicator hSm]
    refine lintegral_mono fun y => ?_
    by_cases hy : y ∈ S
    · rw [Set.indicator_of_mem hy]
      exact mul_le_mul_left (ENNReal.ofReal_le_ofReal (hdens z.2 hzv y hy).1) _
    · rw [Set.indicator_of_notMem hy]
      exact zero_le
  -- the first variances
  set I := c0 * (ENNReal.ofReal lo * ∫⁻ y in S, h y) with hI
  have hgT : Measurable fun z : (Fin n → ℝ) × (Fin m → ℝ) =>
      ∫⁻ s, g ((varianceStep b draw ∘ moveStep D A W lp K) (z, s)).1 ∂μ := by
    have : Measurable fun p : ((Fin n → ℝ) × (Fin m → ℝ)) × σ =>
        g ((varianceStep b draw ∘ moveStep D A W lp K) p).1 := hg.comp (measurable_fst.comp hfT.1)
    exact this.lintegral_prod_right'
  have hvar : ∀ x ∈ S, ∀ w, g0 * I ≤ ∫⁻ s,
      (∫⁻ s', g ((varianceStep b draw ∘ moveStep D A W lp K)
        ((varianceStep b draw ((x, w), s)).1, s')).1 ∂μ) ∂μ := by
    intro x hx w
    rw [varianceStep_expect hb ha hdraw hgT (x, w) (hbS x hx)]
    have hbox : MeasurableSet (Set.Icc (1 : Fin m → ℝ) 2) := measurableSet_Icc
    have hvol : (volume : Measure (Fin m → ℝ)) (Set.Icc (1 : Fin m → ℝ) 2) = 1 := by
      rw [Real.volume_Icc_pi]
      simp
      norm_num
    calc g0 * I = ∫⁻ v in Set.Icc (1 : Fin m → ℝ) 2, g0 * I := by rw [setLIntegral_const, hvol, mul_one]
      _ ≤ ∫⁻ v in Set.Icc (1 : Fin m → ℝ) 2, (∏ j, invGammaPDF (a j) (b x j) (v j)) *
          ∫⁻ s, g ((varianceStep b draw ∘ moveStep D A W lp K) ((x, v), s)).1 ∂μ :=
        setLIntegral_mono' hbox fun v hv => mul_le_mul' (hg0 x hx v hv) (step (x, v) hx hv)
      _ ≤ _ := setLIntegral_le_lintegral _ _
  -- the first move
  have e2 : ∫⁻ s, g ((varianceStep b draw ∘ moveStep D A W lp K)^[2] (p, s)).1 ∂μ =
      ∫⁻ s, ∫⁻ s', (∫⁻ s'', g ((varianceStep b draw ∘ moveStep D A W lp K)
        ((varianceStep b draw ((moveStep D A W lp K (p, s)).1, s')).1, s'')).1 ∂μ) ∂μ ∂μ := by
    have h1 := hfT.lintegral_comp hfT hg p
    have h2 := hfM.lintegral_comp hfV hgT p
    exact h1.trans h2
  rw [e2]
  calc g0 * I = ∫⁻ _ : σ, g0 * I ∂μ := by rw [lintegral_const, measure_univ, mul_one]
    _ ≤ _ := lintegral_mono fun s => hvar _
      ((hS p.2 _).1 (moveFrom_mem D K 0 (fun _ => p.1) s ((hS p.2 _).2 hp))) _

end Verif
