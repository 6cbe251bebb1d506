import Verif.Lemmas.SettledFactor
import Verif.Lemmas.JointFactor
import Verif.Lemmas.JointLower

/-! # Iterations that also draw variances, for one factor: nearness and lower bounds -/

set_option linter.unusedSectionVars false

namespace Verif
open MeasureTheory Finset Function ProbabilityTheory
open scoped ENNReal
variable {n m : ℕ} {σ : Type} [MeasurableSpace σ] {μ : Measure σ} [IsProbabilityMeasure μ] {G : Rng σ XR}

variable (D : IdealRng G n μ) {lp : (Fin m → ℝ) → (Fin n → ℝ) → Option ℝ} {ds : List ℝ} {ntry : ℤ}
  {b : (Fin n → ℝ) → Fin m → ℝ} {draw : σ → (Fin m → ℝ) × σ} {a : Fin m → ℝ} {S : Set (Fin n → ℝ)}

theorem factorStep_eq (R : Fin n → Fin n → ℝ) (z : (Fin n → ℝ) × (Fin m → ℝ)) (s : σ) :
    factorStep D lp ds ntry R (z, s) = (((factorMove D (lp z.2) ds ntry R (z.1, s)).1, z.2),
      (factorMove D (lp z.2) ds ntry R (z.1, s)).2) := by
  by_cases hR : (Matrix.of R).det = 0
  · rw [show factorStep D lp ds ntry R (z, s) = (z, s) from if_pos hR,
      show factorMove D (lp z.2) ds ntry R (z.1, s) = (z.1, s) from if_pos hR]
  · rw [factorStep_of_unit D ds ntry hR, factorMove_of_unit D ds ntry hR]
    rfl

theorem factorStep_mem (hS : ∀ v x, lp v x ≠ none ↔ x ∈ S) (R : Fin n → Fin n → ℝ)
    (z : (Fin n → ℝ) × (Fin m → ℝ)) (hz : z.1 ∈ S) (s : σ) : (factorStep D lp ds ntry R (z, s)).1.1 ∈ S := by
  rw [factorStep_eq]
  exact (hS z.2 _).1 (factorMove_mem D R s ((hS z.2 _).2 hz))

/-- mean of a function after new variances are drawn -/
noncomputable def afterVariance (μ : Measure σ) (b : (Fin n → ℝ) → Fin m → ℝ) (draw : σ → (Fin m → ℝ) × σ)
    (g : (Fin n → ℝ) × (Fin m → ℝ) → ℝ≥0∞) (y : Fin n → ℝ) : ℝ≥0∞ :=
  ∫⁻ s, g (varianceStep b draw ((y, 0), s)).1 ∂μ

theorem measurable_afterVariance (hb : Measurable b) (hdraw : Measurable draw)
    {g : (Fin n → ℝ) × (Fin m → ℝ) → ℝ≥0∞} (hg : Measurable g) : Measurable (afterVariance μ b draw g) := by
  have h : Measurable fun p : (Fin n → ℝ) × σ => g (varianceStep b draw ((p.1, 0), p.2)).1 :=
    hg.comp (measurable_fst.comp ((measurable_varianceStep hb hdraw).comp
      ((measurable_fst.prodMk measurable_const).prodMk measurable_snd)))
  exact h.lintegral_prod_right'

theorem afterVariance_le {g : (Fin n → ℝ) × (Fin m → ℝ) → ℝ≥0∞} (hg1 : ∀ z, g z ≤ 1) (y : Fin n → ℝ) :
    afterVariance μ b draw g y ≤ 1 := by
  calc afterVariance μ b draw g y ≤ ∫⁻ _, 1 ∂μ := lintegral_mono fun s => hg1 _
    _ = 1 := by simp

/-- one iteration, from the values alone -/
theorem jointStep_eq (hd : Measurable fun p : (Fin m → ℝ) × (Fin n → ℝ) => (pointAt (lp p.1) p.2).density)
    (h0 : ∀ d ∈ ds, d ≠ 0) (hb : Measurable b) (ha : ∀ j, 0 < a j)
    (hdraw : MeasurePreserving draw μ ((Measure.pi fun j => gammaMeasure (a j) 1).prod μ)) (R : Fin n → Fin n → ℝ)
    {g : (Fin n → ℝ) × (Fin m → ℝ) → ℝ≥0∞} (hg : Measurable g) (z : (Fin n → ℝ) × (Fin m → ℝ)) :
    expect μ (varianceStep b draw ∘ factorStep D lp ds ntry R) 1 g z =
      expect μ (factorMove D (lp z.2) ds ntry R) 1 (afterVariance μ b draw g) z.1 := by
  unfold expect
  simp only [iterate_one, comp_apply]
  rw [(fresh_factorStep D hd h0 ntry R).lintegral_comp (fresh_varianceStep hb ha hdraw) hg z]
  refine lintegral_congr fun s => ?_
  rw [factorStep_eq]
  rfl

/-- near factors, near iterations -/
theorem jointStep_near (hd : Measurable fun p : (Fin m → ℝ) × (Fin n → ℝ) => (pointAt (lp p.1) p.2).density)
    (h0 : ∀ d ∈ ds, d ≠ 0) (hnt : ntry ≤ 2) (hb : Measurable b) (ha : ∀ j, 0 < a j)
    (hdraw : MeasurePreserving draw μ ((Measure.pi fun j => gammaMeasure (a j) 1).prod μ)) :
    ∃ C : ℝ, 0 ≤ C ∧ ∀ R₁ R₂ : Fin n → Fin n → ℝ, (Matrix.of R₁).det ≠ 0 → (Matrix.of R₂).det ≠ 0 →
      ∀ t : ℝ, 0 < t → t ≤ 1 → (∀ w, t ^ 2 * quadForm (Matrix.of R₁) w ≤ quadForm (Matrix.of R₂) w) →
      (∀ w, quadForm (Matrix.of R₂) w ≤ t⁻¹ ^ 2 * quadForm (Matrix.of R₁) w) →
      ∀ g : (Fin n → ℝ) × (Fin m → ℝ) → ℝ≥0∞, Measurable g → (∀ y, g y ≤ 1) → ∀ z,
      expect μ (varianceStep b draw ∘ factorStep D lp ds ntry R₁) 1 g z ≤
        expect μ (varianceStep b draw ∘ factorStep D lp ds ntry R₂) 1 g z +
        ENNReal.ofReal (2 * (1 - (t ^ 2) ^ n) + (t⁻¹ ^ 2 - 1) * C) ∧
      expect μ (varianceStep b draw ∘ factorStep D lp ds ntry R₂) 1 g z ≤
        expect μ (varianceStep b draw ∘ factorStep D lp ds ntry R₁) 1 g z +
        ENNReal.ofReal (2 * (1 - (t ^ 2) ^ n) + (t⁻¹ ^ 2 - 1) * C) := by
  obtain ⟨C, hC, h⟩ := factorMove_near_all D (ds := ds) (ntry := ntry) h0 hnt
  refine ⟨C, hC, fun R₁ R₂ h₁ h₂ t ht ht1 hlo hhi g hg hg1 z => ?_⟩
  rw [jointStep_eq D hd h0 hb ha hdraw R₁ hg, jointStep_eq D hd h0 hb ha hdraw R₂ hg]
  exact h (lp z.2) (section_density hd z.2) R₁ R₂ h₁ h₂ t ht ht1 hlo hhi _ (measurable_afterVariance hb hdraw.measurable hg)
    (afterVariance_le hg1) z.1

/-- Two iterations reach, from every start and for all factors within bounds, a set with at least a fixed multiple
of its probability when the values are uniform on `S` and the variances are drawn given the values. -/
theorem jointStep_two (hd : Measurable fun p : (Fin m → ℝ) × (Fin n → ℝ) => (pointAt (lp p.1) p.2).density)
    (h0 : ∀ d ∈ ds, d ≠ 0) (hb : Measurable b) (ha : ∀ j, 0 < a j)
    (hdraw : MeasurePreserving draw μ ((Measure.pi fun j => gammaMeasure (a j) 1).prod μ))
    (hSm : MeasurableSet S) (hS : ∀ v x, lp v x ≠ none ↔ x ∈ S) (hbS : ∀ x ∈ S, ∀ j, 0 < b x j)
    {C : ℝ} (hC : ∀ x ∈ S, ∀ y ∈ S, ∀ i, |y i - x i| ≤ C) {lo hi : ℝ} (hlo : 0 < lo) (hhi : 0 < hi)
    (hdens : ∀ v ∈ Set.Icc (1 : Fin m → ℝ) 2, ∀ y ∈ S,
      lo ≤ (pointAt (lp v) y).density ∧ (pointAt (lp v) y).density ≤ hi)
    {g0 : ℝ≥0∞} (hg0 : ∀ x ∈ S, ∀ v ∈ Set.Icc (1 : Fin m → ℝ) 2, g0 ≤ ∏ j, invGammaPDF (a j) (b x j) (v j))
    (hg00 : g0 ≠ 0) {ρ τ : ℝ} (hρ : 0 < ρ) (hτ : 0 < τ) :
    ∃ ε : ℝ≥0∞, 0 < ε ∧ ∀ R : Fin n → Fin n → ℝ, (Matrix.of R).det ≠ 0 →
      (∀ w, ρ ^ 2 * ∑ i, w i ^ 2 ≤ quadForm (Matrix.of R) w) →
      (∀ w, quadForm (Matrix.of R) w ≤ τ ^ 2 * ∑ i, w i ^ 2) →
      ∀ g : (Fin n → ℝ) × (Fin m → ℝ) → ℝ≥0∞, Measurable g → ∀ p : (Fin n → ℝ) × (Fin m → ℝ), p.1 ∈ S →
        ε * ∫⁻ y in S, ∫⁻ v, (∏ j, invGammaPDF (a j) (b y j) (v j)) * g (y, v) ≤
          expect μ (varianceStep b draw ∘ factorStep D lp ds ntry R) 2 g p := by
  obtain ⟨ε1, hε1, hmin⟩ := factorMove_minor_all D (ds := ds) (ntry := ntry) h0 hρ hτ hhi C
  refine ⟨g0 * (ε1 * ENNReal.ofReal lo), ENNReal.mul_pos hg00 (ENNReal.mul_pos hε1.ne' (by simpa using hlo)).ne',
    fun R hR hRl hRh g hg p hp => ?_⟩
  set F := factorStep D lp ds ntry R with hF
  have hfV : Fresh μ (varianceStep b draw) := fresh_varianceStep hb ha hdraw
  have hfM : Fresh μ F := fresh_factorStep D hd h0 ntry R
  have hfT := hfV.comp hfM
  -- variances given the values
  have hh : ∀ x ∈ S, ∀ w, ∫⁻ s, g (varianceStep b draw ((x, w), s)).1 ∂μ =
      ∫⁻ v, (∏ j, invGammaPDF (a j) (b x j) (v j)) * g (x, v) := fun x hx w =>
    varianceStep_expect hb ha hdraw hg (x, w) (hbS x hx)
  -- one iteration
  set I := ε1 * ENNReal.ofReal lo * ∫⁻ y in S, ∫⁻ v, (∏ j, invGammaPDF (a j) (b y j) (v j)) * g (y, v) with hI
  have step : ∀ z : (Fin n → ℝ) × (Fin m → ℝ), z.1 ∈ S → z.2 ∈ Set.Icc (1 : Fin m → ℝ) 2 →
      I ≤ ∫⁻ s, g ((varianceStep b draw ∘ F) (z, s)).1 ∂μ := by
    intro z hz hzv
    have e := jointStep_eq D (ntry := ntry) hd h0 hb ha hdraw R hg z
    have hm := measurable_afterVariance (μ := μ) hb hdraw.measurable hg
    have h1 := hmin (lp z.2) (section_density hd z.2) (fun y => by
        by_cases hy : y ∈ S
        · exact (hdens z.2 hzv y hy).2
        · have hn : lp z.2 y = none := by
            by_contra hh
            exact hy ((hS _ _).1 hh)
          have : (pointAt (lp z.2) y).density = 0 := by simp [pointAt, Point.density, hn]
          rw [this]; exact hhi.le)
      (fun x y hx hy => hC x ((hS _ _).1 hx) y ((hS _ _).1 hy)) R hR hRl hRh _ hm z.1 ((hS z.2 z.1).2 hz)
    rw [← e] at h1
    refine le_trans ?_ h1
    rw [hI, mul_assoc]
    refine mul_le_mul_right ?_ _
    have e2 : ∫⁻ y in S, ∫⁻ v, (∏ j, invGammaPDF (a j) (b y j) (v j)) * g (y, v) =
        ∫⁻ y in S, afterVariance μ b draw g y :=
      setLIntegral_congr_fun hSm fun y hy => (hh y hy 0).symm
    rw [e2, ← lintegral_const_mul _ hm, ← lintegral_indicator hSm]
    refine lintegral_mono fun y => ?_
    by_cases hy : y ∈ S
    · rw [Set.indicator_of_mem hy]
      exact mul_le_mul_left (ENNReal.ofReal_le_ofReal (hdens z.2 hzv y hy).1) _
    · rw [Set.indicator_of_notMem hy]
      exact zero_le
  have hgT : Measurable fun z : (Fin n → ℝ) × (Fin m → ℝ) => ∫⁻ s, g ((varianceStep b draw ∘ F) (z, s)).1 ∂μ := by
    have : Measurable fun p : ((Fin n → ℝ) × (Fin m → ℝ)) × σ => g ((varianceStep b draw ∘ F) p).1 :=
      hg.comp (measurable_fst.comp hfT.1)
    exact this.lintegral_prod_right'
  have hvar : ∀ x ∈ S, ∀ w, g0 * I ≤ ∫⁻ s,
      (∫⁻ s', g ((varianceStep b draw ∘ F) ((varianceStep b draw ((x, w), s)).1, s')).1 ∂μ) ∂μ := by
    intro x hx w
    rw [varianceStep_expect hb ha hdraw hgT (x, w) (hbS x hx)]
    have hbox : MeasurableSet (Set.Icc (1 : Fin m → ℝ) 2) := measurableSet_Icc
    have hvol : (volume : Measure (Fin m → ℝ)) (Set.Icc (1 : Fin m → ℝ) 2) = 1 := by
      rw [Real.volume_Icc_pi]
      simp
      norm_num
    calc g0 * I = ∫⁻ v in Set.Icc (1 : Fin m → ℝ) 2, g0 * I := by rw [setLIntegral_const, hvol, mul_one]
      _ ≤ ∫⁻ v in Set.Icc (1 : Fin m → ℝ) 2, (∏ j, invGammaPDF (a j) (b x j) (v j)) *
          ∫⁻ s, g ((varianceStep b draw ∘ F) ((x, v), s)).1 ∂μ :=
        setLIntegral_mono' hbox fun v hv => mul_le_mul' (hg0 x hx v hv) (step (x, v) hx hv)
      _ ≤ _ := setLIntegral_le_lintegral _ _
  have e2 : expect μ (varianceStep b draw ∘ F) 2 g p =
      ∫⁻ s, ∫⁻ s', (∫⁻ s'', g ((varianceStep b draw ∘ F)
        ((varianceStep b draw ((F (p, s)).1, s')).1, s'')).1 ∂μ) ∂μ ∂μ := by
    have h1 := hfT.lintegral_comp hfT hg p
    have h2 := hfM.lintegral_comp hfV hgT p
    exact h1.trans h2
  rw [e2, mul_assoc]
  calc g0 * I = ∫⁻ _ : σ, g0 * I ∂μ := by rw [lintegral_const, measure_univ, mul_one]
    _ ≤ _ := lintegral_mono fun s => hvar _ (factorStep_mem D hS R p hp s) _

end Verif
