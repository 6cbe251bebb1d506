import Verif.Lemmas.DrMove
import Verif.Lemmas.GammaLaw

/-! # Iterations that also draw the error variances -/

namespace Verif
open MeasureTheory Finset Function ProbabilityTheory
open scoped ENNReal Matrix

section fresh
variable {X σ : Type} [MeasurableSpace X] [MeasurableSpace σ] {μ : Measure σ}

/-- A step that leaves the generator in a state with law `μ`, independent of the values reached. -/
structure Fresh (μ : Measure σ) (T : X × σ → X × σ) : Prop where
  measurable : Measurable T
  indep : ∀ x (g : X × σ → ℝ≥0∞), Measurable g →
    ∫⁻ s, g (T (x, s)) ∂μ = ∫⁻ s, ∫⁻ s', g ((T (x, s)).1, s') ∂μ ∂μ

variable [IsProbabilityMeasure μ]

theorem Fresh.id : Fresh μ (id : X × σ → X × σ) :=
  ⟨measurable_id, fun x g _ => by simp⟩

theorem Fresh.comp {T T' : X × σ → X × σ} (h' : Fresh μ T') (h : Fresh μ T) : Fresh μ (T' ∘ T) := by
  refine ⟨h'.measurable.comp h.measurable, fun x g hg => ?_⟩
  have h1 : Measurable fun p : X × σ => ∫⁻ s', g ((T' p).1, s') ∂μ :=
    Measurable.lintegral_prod_right' (f := fun p : (X × σ) × σ => g ((T' p.1).1, p.2))
      (hg.comp (((measurable_fst.comp h'.measurable).comp measurable_fst).prodMk measurable_snd))
  have e1 := h.indep x _ (hg.comp h'.measurable)
  have e2 := h.indep x _ h1
  simp only [comp_apply] at e1 ⊢
  rw [e1, e2]
  exact lintegral_congr fun s => h'.indep _ g hg

theorem Fresh.iterate {T : X × σ → X × σ} (h : Fresh μ T) : ∀ j : ℕ, Fresh μ (T^[j])
  | 0 => Fresh.id
  | j + 1 => by
    rw [iterate_succ']
    exact h.comp (h.iterate j)

theorem Fresh.state {T : X × σ → X × σ} (h : Fresh μ T) (x : X) :
    MeasurePreserving (fun s => (T (x, s)).2) μ μ := by
  have hm : Measurable fun s => (T (x, s)).2 :=
    measurable_snd.comp (h.measurable.comp (measurable_const.prodMk measurable_id))
  refine ⟨hm, Measure.ext_of_lintegral _ fun g hg => ?_⟩
  rw [lintegral_map hg hm]
  have := h.indep x (fun p => g p.2) (hg.comp measurable_snd)
  simpa using this

theorem Fresh.ae {T : X × σ → X × σ} (h : Fresh μ T) {B : σ → Prop} (hB : ∀ᵐ s ∂μ, B s) (x : X) :
    ∀ᵐ s ∂μ, B (T (x, s)).2 := (h.state x).quasiMeasurePreserving.ae hB

end fresh

section move
variable {n m : ℕ} {σ : Type} [MeasurableSpace σ] {μ : Measure σ} {G : Rng σ XR}
  {Y : Type} [MeasurableSpace Y] {lp : Y → (Fin n → ℝ) → Option ℝ}
  {A : ℕ → Matrix (Fin n) (Fin n) ℝ} {W : ℕ → Fin n → Fin n → ℝ}

attribute [local irreducible] gauss propDensity

theorem measurable_alphaAt_param (hd : Measurable fun p : Y × (Fin n → ℝ) => (pointAt (lp p.1) p.2).density)
    (l : ℕ) : Measurable fun p : Y × (ℕ → Fin n → ℝ) => alphaAt W (lp p.1) l p.2 := by
  induction l using Nat.strong_induction_on with
  | _ l ih =>
    have e : (fun p : Y × (ℕ → Fin n → ℝ) => alphaAt W (lp p.1) l p.2) = fun p =>
        min 1 (((pointAt (lp p.1) (p.2 (l + 1))).density *
        (∏ k ∈ range (l + 1), gauss (W k) (p.2 (l + 1)) (p.2 (l - k))) *
        ∏ k : Fin l, (1 - alphaAt W (lp p.1) k fun i => p.2 (l + 1 - i))) /
      ((pointAt (lp p.1) (p.2 0)).density * (∏ k ∈ range (l + 1), gauss (W k) (p.2 0) (p.2 (k + 1))) *
        ∏ k : Fin l, (1 - alphaAt W (lp p.1) k p.2))) := by
      funext p
      unfold alphaAt
      rw [drAlpha]
      rfl
    rw [e]
    have h0 : ∀ i, Measurable fun p : Y × (ℕ → Fin n → ℝ) => p.2 i := fun i =>
      (measurable_pi_apply i).comp measurable_snd
    have h1 : ∀ i, Measurable fun p : Y × (ℕ → Fin n → ℝ) => (pointAt (lp p.1) (p.2 i)).density := fun i =>
      hd.comp (measurable_fst.prodMk (h0 i))
    have h2 : ∀ k i j, Measurable fun p : Y × (ℕ → Fin n → ℝ) => gauss (W k) (p.2 i) (p.2 j) := fun k i j =>
      measurable_gauss (W k) (h0 i) (h0 j)
    have h3 : Measurable fun p : Y × (ℕ → Fin n → ℝ) => (p.1, fun i => p.2 (l + 1 - i)) :=
      measurable_fst.prodMk (measurable_pi_iff.2 fun i => h0 _)
    refine measurable_const.min (Measurable.div ?_ ?_)
    · refine ((h1 _).mul (Finset.measurable_prod _ fun k _ => h2 _ _ _)).mul
        (Finset.measurable_prod _ fun k _ => measurable_const.sub ?_)
      exact (ih k k.isLt).comp h3
    · exact ((h1 _).mul (Finset.measurable_prod _ fun k _ => h2 _ _ _)).mul
        (Finset.measurable_prod _ fun k _ => measurable_const.sub (ih k k.isLt))

variable (D : IdealRng G n μ)

theorem measurable_stage_param (hd : Measurable fun p : Y × (Fin n → ℝ) => (pointAt (lp p.1) p.2).density)
    (l : ℕ) {β : Type} [MeasurableSpace β] {a b c d : (Y × (ℕ → Fin n → ℝ)) × (Fin n → ℝ) × σ → β}
    (ha : Measurable a) (hb : Measurable b) (hc : Measurable c) (hdm : Measurable d) :
    Measurable fun p : (Y × (ℕ → Fin n → ℝ)) × (Fin n → ℝ) × σ => open Classical in
      if 0 < (pointAt (lp p.1.1) p.2.1).density then
        if 0 < l ∧ 1 ≤ alphaAt W (lp p.1.1) l (update p.1.2 (l + 1) p.2.1) then a p
        else if D.u p.2.2 < alphaAt W (lp p.1.1) l (update p.1.2 (l + 1) p.2.1) then b p else c p
      else d p := by
  have hu : Measurable fun p : (Y × (ℕ → Fin n → ℝ)) × (Fin n → ℝ) × σ => update p.1.2 (l + 1) p.2.1 :=
    (measurable_update_path (l + 1)).comp
      ((measurable_snd.comp measurable_fst).prodMk (measurable_fst.comp measurable_snd))
  have hal : Measurable fun p : (Y × (ℕ → Fin n → ℝ)) × (Fin n → ℝ) × σ =>
      alphaAt W (lp p.1.1) l (update p.1.2 (l + 1) p.2.1) :=
    (measurable_alphaAt_param hd l).comp ((measurable_fst.comp measurable_fst).prodMk hu)
  have hden : Measurable fun p : (Y × (ℕ → Fin n → ℝ)) × (Fin n → ℝ) × σ =>
      (pointAt (lp p.1.1) p.2.1).density :=
    hd.comp ((measurable_fst.comp measurable_fst).prodMk (measurable_fst.comp measurable_snd))
  refine Measurable.ite (measurableSet_lt measurable_const hden)
    (Measurable.ite ?_ ha (Measurable.ite ?_ hb hc)) hdm
  · by_cases h0 : 0 < l
    · simpa [h0] using measurableSet_le measurable_const hal
    · simp [h0]
  · exact measurableSet_lt (D.measurable_u.comp (measurable_snd.comp measurable_snd)) hal

theorem measurable_moveFrom_param (hd : Measurable fun p : Y × (Fin n → ℝ) => (pointAt (lp p.1) p.2).density)
    (r : ℕ) : ∀ l, Measurable fun p : (Y × (ℕ → Fin n → ℝ)) × σ => moveFrom D A W (lp p.1.1) r l p.1.2 p.2 := by
  induction r with
  | zero =>
    exact fun l => ((measurable_pi_apply 0).comp (measurable_snd.comp measurable_fst)).prodMk measurable_snd
  | succ r ih =>
    intro l
    have h0 : Measurable fun p : (Y × (ℕ → Fin n → ℝ)) × σ => p.1.2 0 :=
      (measurable_pi_apply 0).comp (measurable_snd.comp measurable_fst)
    have hT : Measurable fun p : (Y × (ℕ → Fin n → ℝ)) × σ =>
        (p.1, p.1.2 0 + D.z p.2 ᵥ* A l, D.afterZ p.2) :=
      measurable_fst.prodMk ((h0.add
        ((measurable_vecMul _).comp (D.measurable_z.comp measurable_snd))).prodMk
        (D.measurable_afterZ.comp measurable_snd))
    have h1 : Measurable fun p : (Y × (ℕ → Fin n → ℝ)) × (Fin n → ℝ) × σ =>
        (p.1.1, update p.1.2 (l + 1) p.2.1) :=
      (measurable_fst.comp measurable_fst).prodMk ((measurable_update_path (l + 1)).comp
        ((measurable_snd.comp measurable_fst).prodMk (measurable_fst.comp measurable_snd)))
    have h2 : Measurable fun p : (Y × (ℕ → Fin n → ℝ)) × (Fin n → ℝ) × σ => D.afterU p.2.2 :=
      D.measurable_afterU.comp (measurable_snd.comp measurable_snd)
    have hS := measurable_stage_param D (W := W) hd l (a := fun p => p.2)
      (b := fun p => (p.2.1, D.afterU p.2.2))
      (c := fun p => moveFrom D A W (lp p.1.1) r (l + 1) (update p.1.2 (l + 1) p.2.1) (D.afterU p.2.2))
      (d := fun p => moveFrom D A W (lp p.1.1) r (l + 1) (update p.1.2 (l + 1) p.2.1) p.2.2)
      measurable_snd ((measurable_fst.comp measurable_snd).prodMk h2)
      ((ih (l + 1)).comp (h1.prodMk h2)) ((ih (l + 1)).comp (h1.prodMk (measurable_snd.comp measurable_snd)))
    exact hS.comp hT

/-- an iteration that moves the values `p.1.1` and leaves `p.1.2` alone -/
noncomputable def moveStep (A : ℕ → Matrix (Fin n) (Fin n) ℝ) (W : ℕ → Fin n → Fin n → ℝ)
    (lp : Y → (Fin n → ℝ) → Option ℝ) (K : ℕ) (p : ((Fin n → ℝ) × Y) × σ) : ((Fin n → ℝ) × Y) × σ :=
  (((moveFrom D A W (lp p.1.2) K 0 (fun _ => p.1.1) p.2).1, p.1.2),
    (moveFrom D A W (lp p.1.2) K 0 (fun _ => p.1.1) p.2).2)

theorem measurable_moveStep (hd : Measurable fun p : Y × (Fin n → ℝ) => (pointAt (lp p.1) p.2).density)
    (K : ℕ) : Measurable (moveStep D A W lp K) := by
  have h0 : Measurable fun p : ((Fin n → ℝ) × Y) × σ => ((p.1.2, fun _ : ℕ => p.1.1), p.2) :=
    ((measurable_snd.comp measurable_fst).prodMk
      (measurable_pi_iff.2 fun _ => measurable_fst.comp measurable_fst)).prodMk measurable_snd
  have h1 : Measurable fun p : ((Fin n → ℝ) × Y) × σ => moveFrom D A W (lp p.1.2) K 0 (fun _ => p.1.1) p.2 :=
    (measurable_moveFrom_param D hd K 0).comp h0
  exact ((measurable_fst.comp h1).prodMk (measurable_snd.comp measurable_fst)).prodMk (measurable_snd.comp h1)

variable [IsProbabilityMeasure μ]

theorem section_density (hd : Measurable fun p : Y × (Fin n → ℝ) => (pointAt (lp p.1) p.2).density) (y : Y) :
    Measurable fun x => (pointAt (lp y) x).density :=
  hd.comp (measurable_const.prodMk measurable_id)

theorem fresh_moveStep (hd : Measurable fun p : Y × (Fin n → ℝ) => (pointAt (lp p.1) p.2).density) {K : ℕ}
    (hAW : ∀ k < K, A k * Matrix.of (W k) = 1) : Fresh μ (moveStep D A W lp K) := by
  refine ⟨measurable_moveStep D hd K, fun x g hg => ?_⟩
  have hl := section_density hd x.2
  have hg' : Measurable fun p : (Fin n → ℝ) × σ => g ((p.1, x.2), p.2) :=
    hg.comp ((measurable_fst.prodMk measurable_const).prodMk measurable_snd)
  have hg'' : Measurable fun y : Fin n → ℝ => ∫⁻ s, g ((y, x.2), s) ∂μ := hg'.lintegral_prod_right'
  have e1 := lintegral_moveFrom D (A := A) (W := W) hl hAW hg' K 0 (by omega) (fun _ => x.1)
  have e2 := lintegral_moveFrom D (A := A) (W := W) hl hAW
    (g := fun p : (Fin n → ℝ) × σ => ∫⁻ s, g ((p.1, x.2), s) ∂μ) (hg''.comp measurable_fst) K 0 (by omega)
    (fun _ => x.1)
  simp only [lintegral_const, measure_univ, mul_one] at e2
  exact e1.trans e2.symm

/-- The law "density `c(y)` times the posterior for `y`" is kept. -/
theorem moveStep_invariant (ν : Measure Y) [SFinite ν]
    (hd : Measurable fun p : Y × (Fin n → ℝ) => (pointAt (lp p.1) p.2).density) {K : ℕ}
    (hAW : ∀ k < K, A k * Matrix.of (W k) = 1) {c : Y → ℝ≥0∞}
    {f : (Fin n → ℝ) × Y → ℝ≥0∞} (hf : Measurable f)
    (hfc : ∀ p, f p = c p.2 * ENNReal.ofReal (pointAt (lp p.2) p.1).density) :
    MeasurePreserving (moveStep D A W lp K) ((((volume : Measure (Fin n → ℝ)).prod ν).withDensity f).prod μ)
      (((volume.prod ν).withDensity f).prod μ) := by
  have hmeas := measurable_moveStep D (A := A) (W := W) hd K
  refine ⟨hmeas, Measure.ext_of_lintegral _ fun g hg => ?_⟩
  have key : ∀ h : ((Fin n → ℝ) × Y) × σ → ℝ≥0∞, Measurable h →
      ∫⁻ p, h p ∂((((volume : Measure (Fin n → ℝ)).prod ν).withDensity f).prod μ) =
        ∫⁻ y, c y * (∫⁻ x : Fin n → ℝ, ENNReal.ofReal (pointAt (lp y) x).density * ∫⁻ s, h ((x, y), s) ∂μ) ∂ν := by
    intro h hh
    have h1 : Measurable fun q => ∫⁻ s, h (q, s) ∂μ := hh.lintegral_prod_right'
    rw [lintegral_prod _ hh.aemeasurable, lintegral_withDensity_eq_lintegral_mul _ hf h1,
      lintegral_prod_symm _ (hf.mul h1).aemeasurable]
    refine lintegral_congr fun y => ?_
    have h2 : Measurable fun x => ENNReal.ofReal (pointAt (lp y) x).density * ∫⁻ s, h ((x, y), s) ∂μ :=
      (section_density hd y).ennreal_ofReal.mul (h1.comp (measurable_id.prodMk measurable_const))
    rw [← lintegral_const_mul _ h2]
    refine lintegral_congr fun x => ?_
    simp only [Pi.mul_apply, hfc]
    ring
  have hgs : Measurable fun p => g (moveStep D A W lp K p) := hg.comp hmeas
  rw [lintegral_map hg hmeas, key _ hgs, key _ hg]
  refine lintegral_congr fun y => ?_
  congr 1
  have hl := section_density hd y
  have hinv := moveFrom_invariant D (A := A) (W := W) hl hAW
  have hg' : Measurable fun p : (Fin n → ℝ) × σ => g ((p.1, y), p.2) :=
    hg.comp ((measurable_fst.prodMk measurable_const).prodMk measurable_snd)
  have hgm : Measurable fun p : (Fin n → ℝ) × σ => g (((moveFrom D A W (lp y) K 0 (fun _ => p.1) p.2).1, y),
      (moveFrom D A W (lp y) K 0 (fun _ => p.1) p.2).2) := hg'.comp hinv.measurable
  have e := hinv.lintegral_comp hg'
  rw [lintegral_prod _ hgm.aemeasurable, lintegral_prod _ hg'.aemeasurable,
    lintegral_withDensity_eq_lintegral_mul _ hl.ennreal_ofReal hgm.lintegral_prod_right',
    lintegral_withDensity_eq_lintegral_mul _ hl.ennreal_ofReal hg'.lintegral_prod_right'] at e
  exact e

end move

section gibbs
open Real Set

/-- density of the quotient of `b` and a number with the gamma law of shape `a` and rate 1 -/
noncomputable def invGammaPDF (a b v : ℝ) : ℝ≥0∞ :=
  if 0 < v then ENNReal.ofReal (b ^ a / Gamma a * (v ^ (-a - 1) * exp (-b / v))) else 0

theorem measurable_invGammaPDF (a : ℝ) : Measurable fun p : ℝ × ℝ => invGammaPDF a p.1 p.2 := by
  unfold invGammaPDF
  refine Measurable.ite (measurableSet_lt measurable_const measurable_snd) ?_ measurable_const
  fun_prop

theorem lintegral_invGamma {a b : ℝ} (ha : 0 < a) (hb : 0 < b) {h : ℝ → ℝ≥0∞} (hh : Measurable h) :
    ∫⁻ x, h (b / x) ∂gammaMeasure a 1 = ∫⁻ v, invGammaPDF a b v * h v := by
  have hGa := Gamma_pos_of_pos ha
  have hd : ∀ x ∈ Set.Ioi (0 : ℝ), HasDerivWithinAt (fun x => b / x) (-b / x ^ 2) (Set.Ioi 0) x := by
    intro x hx
    have hx0 : x ≠ 0 := ne_of_gt hx
    have := (hasDerivAt_inv hx0).const_mul b
    refine ((this.congr_deriv ?_).congr_of_eventuallyEq ?_).hasDerivWithinAt
    · field_simp
    · exact Filter.Eventually.of_forall fun y => div_eq_mul_inv b y
  have hinj : InjOn (fun x : ℝ => b / x) (Set.Ioi 0) := by
    intro x hx y hy hxy
    have hx0 : x ≠ 0 := ne_of_gt hx
    have hy0 : y ≠ 0 := ne_of_gt hy
    have hxy : b / x = b / y := hxy
    rw [div_eq_div_iff hx0 hy0] at hxy
    exact (mul_left_cancel₀ hb.ne' hxy).symm
  have himg : (fun x : ℝ => b / x) '' Set.Ioi 0 = Set.Ioi 0 := by
    ext y
    constructor
    · rintro ⟨x, hx, rfl⟩
      exact div_pos hb hx
    · intro hy
      have hy0 : (0 : ℝ) < y := hy
      exact ⟨b / y, div_pos hb hy0, by show b / (b / y) = y; field_simp⟩
  have hl : ∫⁻ x, h (b / x) ∂gammaMeasure a 1 = ∫⁻ x in Set.Ioi 0, gammaPDF a 1 x * h (b / x) := by
    unfold gammaMeasure
    have hpm : Measurable (gammaPDF a 1) := (measurable_gammaPDFReal a 1).ennreal_ofReal
    have hhb : Measurable fun x => h (b / x) := hh.comp (measurable_const.div measurable_id)
    rw [lintegral_withDensity_eq_lintegral_mul _ hpm hhb]
    rw [← setLIntegral_congr (Ioi_ae_eq_Ici (a := (0 : ℝ))).symm, ← lintegral_indicator measurableSet_Ici]
    congr 1
    funext y
    by_cases hy : y ∈ Set.Ici (0 : ℝ)
    · rw [indicator_of_mem hy]; rfl
    · rw [indicator_of_notMem hy, Pi.mul_apply, gammaPDF_of_neg (not_le.1 hy), zero_mul]
  have hr : ∫⁻ v, invGammaPDF a b v * h v = ∫⁻ v in Set.Ioi 0, invGammaPDF a b v * h v := by
    rw [← lintegral_indicator measurableSet_Ioi]
    congr 1
    funext y
    by_cases hy : y ∈ Set.Ioi (0 : ℝ)
    · rw [indicator_of_mem hy]
    · have hy' : ¬ 0 < y := hy
      rw [indicator_of_notMem hy, invGammaPDF, if_neg hy', zero_mul]
  rw [hl, hr]
  conv_rhs => rw [← himg]
  rw [lintegral_image_eq_lintegral_abs_deriv_mul measurableSet_Ioi hd hinj]
  refine setLIntegral_congr_fun measurableSet_Ioi fun x hx => ?_
  have hx0 : (0 : ℝ) < x := hx
  have hbx : 0 < b / x := div_pos hb hx0
  show gammaPDF a 1 x * h (b / x) = ENNReal.ofReal |-b / x ^ 2| * (invGammaPDF a b (b / x) * h (b / x))
  rw [← mul_assoc, invGammaPDF, if_pos hbx, ← ENNReal.ofReal_mul (abs_nonneg _), gammaPDF_of_nonneg hx0.le]
  congr 2
  have e0 : |-b / x ^ 2| = b / x ^ 2 := by
    rw [neg_div, abs_neg, abs_of_pos (by positivity)]
  have e1 : -b / (b / x) = -(1 * x) := by field_simp
  have e2 : b / x ^ 2 * (b ^ a * (b / x) ^ (-a - 1)) = x ^ (a - 1) := by
    rw [div_rpow hb.le hx0.le, mul_div_assoc', ← rpow_add hb, show a + (-a - 1) = (-1 : ℝ) by ring,
      show -a - 1 = -(a + 1) by ring, rpow_neg hx0.le, rpow_neg_one, show a - 1 = (a + 1) - (2 : ℕ) by push_cast; ring,
      rpow_sub hx0, rpow_natCast]
    field_simp
  rw [e0, e1, one_rpow]
  linear_combination (-(1 / Gamma a) * exp (-(1 * x))) * e2

theorem pi_withDensity {m : ℕ} (f : Fin m → ℝ → ℝ≥0∞) (hf : ∀ i, Measurable (f i))
    [∀ i, SigmaFinite ((volume : Measure ℝ).withDensity (f i))] :
    Measure.pi (fun i => (volume : Measure ℝ).withDensity (f i)) =
      (volume : Measure (Fin m → ℝ)).withDensity fun z => ∏ i, f i (z i) := by
  refine Measure.pi_eq fun s hs => ?_
  rw [withDensity_apply _ (MeasurableSet.univ_pi hs), ← lintegral_indicator (MeasurableSet.univ_pi hs)]
  have : ∀ z : Fin m → ℝ, (Set.univ.pi s).indicator (fun z => ∏ i, f i (z i)) z =
      ∏ i, (s i).indicator (f i) (z i) := by
    intro z
    by_cases hz : z ∈ Set.univ.pi s
    · rw [Set.indicator_of_mem hz]
      exact prod_congr rfl fun i _ => by rw [Set.indicator_of_mem (hz i trivial)]
    · rw [Set.indicator_of_notMem hz]
      simp only [Set.mem_pi, Set.mem_univ, forall_const, not_forall] at hz
      obtain ⟨i, hi⟩ := hz
      rw [prod_eq_zero (mem_univ i) (by rw [Set.indicator_of_notMem hi])]
  simp only [this]
  rw [volume_pi, lintegral_fin_prod m _ _ fun i => (hf i).indicator (hs i)]
  refine prod_congr rfl fun i _ => ?_
  rw [lintegral_indicator (hs i), withDensity_apply _ (hs i)]

theorem lintegral_invGammas {m : ℕ} {a b : Fin m → ℝ} (ha : ∀ j, 0 < a j) (hb : ∀ j, 0 < b j)
    {h : (Fin m → ℝ) → ℝ≥0∞} (hh : Measurable h) :
    ∫⁻ g, h (fun j => b j / g j) ∂Measure.pi (fun j => gammaMeasure (a j) 1) =
      ∫⁻ v, (∏ j, invGammaPDF (a j) (b j) (v j)) * h v := by
  have : ∀ j, IsProbabilityMeasure (gammaMeasure (a j) 1) := fun j =>
    isProbabilityMeasure_gammaMeasure (ha j) one_pos
  have hm : ∀ j, Measurable (invGammaPDF (a j) (b j)) := fun j =>
    (measurable_invGammaPDF (a j)).comp (measurable_const.prodMk measurable_id)
  have hmp : ∀ j, MeasurePreserving (fun x : ℝ => b j / x) (gammaMeasure (a j) 1)
      ((volume : Measure ℝ).withDensity (invGammaPDF (a j) (b j))) := by
    intro j
    have hdiv : Measurable fun x : ℝ => b j / x := measurable_const.div measurable_id
    refine ⟨hdiv, Measure.ext_of_lintegral _ fun g hg => ?_⟩
    rw [lintegral_map hg hdiv, lintegral_invGamma (ha j) (hb j) hg,
      lintegral_withDensity_eq_lintegral_mul _ (hm j) hg]
    rfl
  have : ∀ j, IsProbabilityMeasure ((volume : Measure ℝ).withDensity (invGammaPDF (a j) (b j))) := fun j =>
    by
    rw [← (hmp j).map_eq]
    exact Measure.isProbabilityMeasure_map (hmp j).measurable.aemeasurable
  have hpi := measurePreserving_pi _ _ hmp
  rw [pi_withDensity _ hm] at hpi
  have hprod : Measurable fun v : Fin m → ℝ => ∏ j, invGammaPDF (a j) (b j) (v j) :=
    Finset.measurable_prod _ fun j _ => (hm j).comp (measurable_pi_apply j)
  rw [hpi.lintegral_comp hh, lintegral_withDensity_eq_lintegral_mul _ hprod hh]
  rfl

variable {X σ : Type} [MeasurableSpace X] [MeasurableSpace σ] {μ : Measure σ} {m : ℕ}

/-- new variances from the draws -/
noncomputable def varianceStep (b : X → Fin m → ℝ) (draw : σ → (Fin m → ℝ) × σ)
    (p : (X × (Fin m → ℝ)) × σ) : (X × (Fin m → ℝ)) × σ :=
  ((p.1.1, fun j => b p.1.1 j / (draw p.2).1 j), (draw p.2).2)

variable {b : X → Fin m → ℝ} {draw : σ → (Fin m → ℝ) × σ} {a : Fin m → ℝ}

theorem measurable_quotients (hb : Measurable b) :
    Measurable fun p : X × (Fin m → ℝ) => fun j => b p.1 j / p.2 j :=
  measurable_pi_iff.2 fun j => ((measurable_pi_apply j).comp (hb.comp measurable_fst)).div
    ((measurable_pi_apply j).comp measurable_snd)

theorem measurable_varianceStep (hb : Measurable b) (hdraw : Measurable draw) :
    Measurable (varianceStep b draw) := by
  have hd : Measurable fun p : (X × (Fin m → ℝ)) × σ => draw p.2 := hdraw.comp measurable_snd
  have hx : Measurable fun p : (X × (Fin m → ℝ)) × σ => p.1.1 := measurable_fst.comp measurable_fst
  exact (hx.prodMk ((measurable_quotients hb).comp (hx.prodMk (measurable_fst.comp hd)))).prodMk
    (measurable_snd.comp hd)

variable [IsProbabilityMeasure μ]

theorem lintegral_varianceStep (hb : Measurable b) (ha : ∀ j, 0 < a j)
    (hdraw : MeasurePreserving draw μ ((Measure.pi fun j => gammaMeasure (a j) 1).prod μ))
    {g : (X × (Fin m → ℝ)) × σ → ℝ≥0∞} (hg : Measurable g) (x : X × (Fin m → ℝ)) :
    ∫⁻ s, g (varianceStep b draw (x, s)) ∂μ =
      ∫⁻ w, ∫⁻ s, g ((x.1, fun j => b x.1 j / w j), s) ∂μ ∂Measure.pi (fun j => gammaMeasure (a j) 1) := by
  have hm : Measurable fun p : (Fin m → ℝ) × σ => g ((x.1, fun j => b x.1 j / p.1 j), p.2) :=
    hg.comp ((measurable_const.prodMk ((measurable_quotients hb).comp
      (measurable_const.prodMk measurable_fst))).prodMk measurable_snd)
  have : ∀ j, IsProbabilityMeasure (gammaMeasure (a j) 1) := fun j =>
    isProbabilityMeasure_gammaMeasure (ha j) one_pos
  have := hdraw.lintegral_comp hm
  rw [lintegral_prod _ hm.aemeasurable] at this
  exact this

theorem fresh_varianceStep (hb : Measurable b) (ha : ∀ j, 0 < a j)
    (hdraw : MeasurePreserving draw μ ((Measure.pi fun j => gammaMeasure (a j) 1).prod μ)) :
    Fresh μ (varianceStep b draw) := by
  refine ⟨measurable_varianceStep hb hdraw.measurable, fun x g hg => ?_⟩
  have hg' : Measurable fun p : (X × (Fin m → ℝ)) × σ => ∫⁻ s', g (p.1, s') ∂μ :=
    hg.lintegral_prod_right'.comp measurable_fst
  rw [lintegral_varianceStep hb ha hdraw hg, lintegral_varianceStep hb ha hdraw hg']
  simp

/-- Drawing the variances keeps a law with independent inverse gamma conditionals. -/
theorem varianceStep_invariant (ν : Measure X) [SFinite ν] (hb : Measurable b) (ha : ∀ j, 0 < a j)
    (hdraw : MeasurePreserving draw μ ((Measure.pi fun j => gammaMeasure (a j) 1).prod μ))
    {C : X → ℝ≥0∞} (hC : ∀ x, C x ≠ 0 → ∀ j, 0 < b x j)
    {f : X × (Fin m → ℝ) → ℝ≥0∞} (hf : Measurable f)
    (hfc : ∀ p, f p = C p.1 * ∏ j, invGammaPDF (a j) (b p.1 j) (p.2 j)) :
    MeasurePreserving (varianceStep b draw) ((((ν.prod volume)).withDensity f).prod μ)
      (((ν.prod volume).withDensity f).prod μ) := by
  have hmeas := measurable_varianceStep hb hdraw.measurable
  have : ∀ j, IsProbabilityMeasure (gammaMeasure (a j) 1) := fun j =>
    isProbabilityMeasure_gammaMeasure (ha j) one_pos
  have hpr : ∀ x, Measurable fun v : Fin m → ℝ => ∏ j, invGammaPDF (a j) (b x j) (v j) := fun x =>
    Finset.measurable_prod _ fun j _ => (measurable_invGammaPDF (a j)).comp
      (measurable_const.prodMk (measurable_pi_apply j))
  refine ⟨hmeas, Measure.ext_of_lintegral _ fun g hg => ?_⟩
  have key : ∀ h : (X × (Fin m → ℝ)) × σ → ℝ≥0∞, Measurable h →
      ∫⁻ p, h p ∂(((ν.prod volume).withDensity f).prod μ) =
        ∫⁻ x, C x * (∫⁻ w, ∫⁻ s, h ((x, fun j => b x j / w j), s) ∂μ
          ∂Measure.pi (fun j => gammaMeasure (a j) 1)) ∂ν := by
    intro h hh
    have h1 : Measurable fun q => ∫⁻ s, h (q, s) ∂μ := hh.lintegral_prod_right'
    rw [lintegral_prod _ hh.aemeasurable, lintegral_withDensity_eq_lintegral_mul _ hf h1,
      lintegral_prod _ (hf.mul h1).aemeasurable]
    refine lintegral_congr fun x => ?_
    have h3 : Measurable fun v : Fin m → ℝ => ∫⁻ s, h ((x, v), s) ∂μ :=
      h1.comp (measurable_const.prodMk measurable_id)
    by_cases h0 : C x = 0
    · simp [hfc, h0]
    · have h4 : Measurable fun v : Fin m → ℝ => (∏ j, invGammaPDF (a j) (b x j) (v j)) * ∫⁻ s, h ((x, v), s) ∂μ :=
        (hpr x).mul h3
      rw [lintegral_invGammas ha (hC x h0) h3, ← lintegral_const_mul _ h4]
      refine lintegral_congr fun v => ?_
      simp only [Pi.mul_apply, hfc]
      ring
  have hgs : Measurable fun p => g (varianceStep b draw p) := hg.comp hmeas
  rw [lintegral_map hg hmeas, key _ hgs, key _ hg]
  refine lintegral_congr fun x => ?_
  congr 1
  have e := lintegral_varianceStep hb ha hdraw hg
  simp only [e]
  simp

end gibbs

end Verif
