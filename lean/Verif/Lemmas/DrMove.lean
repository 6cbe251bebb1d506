import Verif.Lemmas.Balance

/-! # An iteration with an ideal generator keeps the posterior -/

namespace Verif
open MeasureTheory Finset Function
open scoped ENNReal Matrix
variable {n : ℕ} {σ : Type} [MeasurableSpace σ] {μ : Measure σ} {G : Rng σ XR}

attribute [local irreducible] gauss propDensity

open Classical in
/-- The remaining `r` stages of an iteration after the path `P 0, …, P l` of rejected proposals:
where they lead and in which state they leave the generator. -/
noncomputable def moveFrom (D : IdealRng G n μ) (A : ℕ → Matrix (Fin n) (Fin n) ℝ)
    (W : ℕ → Fin n → Fin n → ℝ) (lp : (Fin n → ℝ) → Option ℝ) :
    (r l : ℕ) → (ℕ → Fin n → ℝ) → σ → (Fin n → ℝ) × σ
  | 0, _, P, s => (P 0, s)
  | r + 1, l, P, s =>
    if 0 < (pointAt lp (P 0 + D.z s ᵥ* A l)).density then
      if 0 < l ∧ 1 ≤ alphaAt W lp l (update P (l + 1) (P 0 + D.z s ᵥ* A l)) then
        (P 0 + D.z s ᵥ* A l, D.afterZ s)
      else if D.u (D.afterZ s) < alphaAt W lp l (update P (l + 1) (P 0 + D.z s ᵥ* A l)) then
        (P 0 + D.z s ᵥ* A l, D.afterU (D.afterZ s))
      else moveFrom D A W lp r (l + 1) (update P (l + 1) (P 0 + D.z s ᵥ* A l)) (D.afterU (D.afterZ s))
    else moveFrom D A W lp r (l + 1) (update P (l + 1) (P 0 + D.z s ᵥ* A l)) (D.afterZ s)

theorem density_pos_iff {lp : (Fin n → ℝ) → Option ℝ} {x : Fin n → ℝ} :
    0 < (pointAt lp x).density ↔ lp x ≠ none := by
  unfold pointAt Point.density
  cases h : lp x with
  | none => simp
  | some e => simp [Real.exp_pos]

section
variable (D : IdealRng G n μ) {A : ℕ → Matrix (Fin n) (Fin n) ℝ}
  {W : ℕ → Fin n → Fin n → ℝ} {lp : (Fin n → ℝ) → Option ℝ}

theorem IdealRng.measurable_z : Measurable D.z := measurable_fst.comp D.lawZ.measurable
theorem IdealRng.measurable_afterZ : Measurable D.afterZ := measurable_snd.comp D.lawZ.measurable
theorem IdealRng.measurable_u : Measurable D.u := measurable_fst.comp D.lawU.measurable
theorem IdealRng.measurable_afterU : Measurable D.afterU := measurable_snd.comp D.lawU.measurable

theorem measurable_vecMul (A : Matrix (Fin n) (Fin n) ℝ) : Measurable fun z : Fin n → ℝ => z ᵥ* A := by
  refine measurable_pi_iff.2 fun i => ?_
  simp only [Matrix.vecMul, dotProduct]
  exact Finset.measurable_sum _ fun j _ => (measurable_pi_apply j).mul_const _

/-- one stage, with the numbers drawn and the later states as arguments -/
theorem measurable_stage (hd : Measurable fun x => (pointAt lp x).density) (l : ℕ)
    {β : Type} [MeasurableSpace β] {a b c d : (ℕ → Fin n → ℝ) × (Fin n → ℝ) × σ → β} (ha : Measurable a)
    (hb : Measurable b) (hc : Measurable c) (hdm : Measurable d) :
    Measurable fun p : (ℕ → Fin n → ℝ) × (Fin n → ℝ) × σ => open Classical in
      if 0 < (pointAt lp p.2.1).density then
        if 0 < l ∧ 1 ≤ alphaAt W lp l (update p.1 (l + 1) p.2.1) then a p
        else if D.u p.2.2 < alphaAt W lp l (update p.1 (l + 1) p.2.1) then b p else c p
      else d p := by
  have hal : Measurable fun p : (ℕ → Fin n → ℝ) × (Fin n → ℝ) × σ =>
      alphaAt W lp l (update p.1 (l + 1) p.2.1) :=
    (measurable_alphaAt hd l).comp ((measurable_update_path (l + 1)).comp
      (measurable_fst.prodMk (measurable_fst.comp measurable_snd)))
  refine Measurable.ite (measurableSet_lt measurable_const (hd.comp (measurable_fst.comp measurable_snd)))
    (Measurable.ite ?_ ha (Measurable.ite ?_ hb hc)) hdm
  · by_cases h0 : 0 < l
    · simpa [h0] using measurableSet_le measurable_const hal
    · simp [h0]
  · exact measurableSet_lt (D.measurable_u.comp (measurable_snd.comp measurable_snd)) hal

theorem measurable_moveFrom (hd : Measurable fun x => (pointAt lp x).density) (r : ℕ) :
    ∀ l, Measurable fun p : (ℕ → Fin n → ℝ) × σ => moveFrom D A W lp r l p.1 p.2 := by
  induction r with
  | zero => exact fun l => ((measurable_pi_apply 0).comp measurable_fst).prodMk measurable_snd
  | succ r ih =>
    intro l
    have hT : Measurable fun p : (ℕ → Fin n → ℝ) × σ =>
        (p.1, p.1 0 + D.z p.2 ᵥ* A l, D.afterZ p.2) :=
      measurable_fst.prodMk ((((measurable_pi_apply 0).comp measurable_fst).add
        ((measurable_vecMul _).comp (D.measurable_z.comp measurable_snd))).prodMk
        (D.measurable_afterZ.comp measurable_snd))
    have h1 : Measurable fun p : (ℕ → Fin n → ℝ) × (Fin n → ℝ) × σ => update p.1 (l + 1) p.2.1 :=
      (measurable_update_path (l + 1)).comp (measurable_fst.prodMk (measurable_fst.comp measurable_snd))
    have h2 : Measurable fun p : (ℕ → Fin n → ℝ) × (Fin n → ℝ) × σ => D.afterU p.2.2 :=
      D.measurable_afterU.comp (measurable_snd.comp measurable_snd)
    have hS := measurable_stage D (W := W) hd l (a := fun p => p.2)
      (b := fun p => (p.2.1, D.afterU p.2.2))
      (c := fun p => moveFrom D A W lp r (l + 1) (update p.1 (l + 1) p.2.1) (D.afterU p.2.2))
      (d := fun p => moveFrom D A W lp r (l + 1) (update p.1 (l + 1) p.2.1) p.2.2)
      measurable_snd ((measurable_fst.comp measurable_snd).prodMk h2)
      ((ih (l + 1)).comp (h1.prodMk h2)) ((ih (l + 1)).comp (h1.prodMk (measurable_snd.comp measurable_snd)))
    exact hS.comp hT

/-- expectation over a uniform draw that decides between two cases -/
theorem lintegral_uniform_lt {α : ℝ} (h0 : 0 ≤ α) (h1 : α ≤ 1) (a b : ℝ≥0∞) :
    ∫⁻ u, (if u < α then a else b) ∂uniformLaw =
      ENNReal.ofReal α * a + ENNReal.ofReal (1 - α) * b := by
  have e : ∀ u : ℝ, (if u < α then a else b) = (Set.Iio α).indicator (fun _ => a) u +
      (Set.Ici α).indicator (fun _ => b) u := by
    intro u
    by_cases h : u < α
    · simp [h]
    · simp [h, not_lt.1 h]
  simp only [e]
  rw [lintegral_add_left (measurable_const.indicator measurableSet_Iio),
    lintegral_indicator_const measurableSet_Iio, lintegral_indicator_const measurableSet_Ici]
  unfold uniformLaw
  rw [Measure.restrict_apply measurableSet_Iio, Measure.restrict_apply measurableSet_Ici,
    show Set.Iio α ∩ Set.Ico 0 1 = Set.Ico 0 α by
      ext u; simp only [Set.mem_inter_iff, Set.mem_Iio, Set.mem_Ico]
      exact ⟨fun h => ⟨h.2.1, h.1⟩, fun h => ⟨h.2, h.1, h.2.trans_le h1⟩⟩,
    show Set.Ici α ∩ Set.Ico 0 1 = Set.Ico α 1 by
      ext u; simp only [Set.mem_inter_iff, Set.mem_Ici, Set.mem_Ico]
      exact ⟨fun h => ⟨h.1, h.2.2⟩, fun h => ⟨h.1, h0.trans h.1, h.2⟩⟩,
    Real.volume_Ico, Real.volume_Ico, sub_zero, mul_comm a, mul_comm b]

variable [IsProbabilityMeasure μ]

theorem lintegral_moveFrom (hd : Measurable fun x => (pointAt lp x).density) {K : ℕ}
    (hAW : ∀ k < K, A k * Matrix.of (W k) = 1) {g : (Fin n → ℝ) × σ → ℝ≥0∞} (hg : Measurable g) (r : ℕ) :
    ∀ l, l + r ≤ K → ∀ P, ∫⁻ s, g (moveFrom D A W lp r l P s) ∂μ =
      expectAfter A W lp (fun y => ∫⁻ s, g (y, s) ∂μ) r l P := by
  induction r with
  | zero => intro l _ P; rfl
  | succ r ih =>
    intro l hl P
    have hgb : Measurable fun y => ∫⁻ s, g (y, s) ∂μ := hg.lintegral_prod_right'
    have hmv := measurable_moveFrom D (A := A) (W := W) hd r (l + 1)
    -- one stage with the numbers drawn and the later states as arguments
    let F : (Fin n → ℝ) × σ → ℝ≥0∞ := fun p => open Classical in
      if 0 < (pointAt lp p.1).density then
        if 0 < l ∧ 1 ≤ alphaAt W lp l (update P (l + 1) p.1) then g p
        else if D.u p.2 < alphaAt W lp l (update P (l + 1) p.1) then g (p.1, D.afterU p.2)
          else g (moveFrom D A W lp r (l + 1) (update P (l + 1) p.1) (D.afterU p.2))
      else g (moveFrom D A W lp r (l + 1) (update P (l + 1) p.1) p.2)
    have hF : Measurable F := by
      have h1 : Measurable fun p : (ℕ → Fin n → ℝ) × (Fin n → ℝ) × σ => update p.1 (l + 1) p.2.1 :=
        (measurable_update_path (l + 1)).comp (measurable_fst.prodMk (measurable_fst.comp measurable_snd))
      have h2 : Measurable fun p : (ℕ → Fin n → ℝ) × (Fin n → ℝ) × σ => D.afterU p.2.2 :=
        D.measurable_afterU.comp (measurable_snd.comp measurable_snd)
      have hS := measurable_stage D (W := W) hd l (a := fun p => g p.2)
        (b := fun p => g (p.2.1, D.afterU p.2.2))
        (c := fun p => g (moveFrom D A W lp r (l + 1) (update p.1 (l + 1) p.2.1) (D.afterU p.2.2)))
        (d := fun p => g (moveFrom D A W lp r (l + 1) (update p.1 (l + 1) p.2.1) p.2.2))
        (hg.comp measurable_snd) (hg.comp ((measurable_fst.comp measurable_snd).prodMk h2))
        (hg.comp (hmv.comp (h1.prodMk h2)))
        (hg.comp (hmv.comp (h1.prodMk (measurable_snd.comp measurable_snd))))
      exact hS.comp (measurable_const.prodMk measurable_id)
    have e1 : ∀ s, g (moveFrom D A W lp (r + 1) l P s) = F (P 0 + D.z s ᵥ* A l, D.afterZ s) := by
      intro s
      simp only [moveFrom, F]
      split_ifs <;> rfl
    have hshift : Measurable fun p : (Fin n → ℝ) × σ => F (P 0 + p.1 ᵥ* A l, p.2) :=
      hF.comp (((measurable_vecMul _).comp measurable_fst |>.const_add _).prodMk measurable_snd)
    -- for given normal numbers
    have e2 : ∀ y, ∫⁻ s, F (y, s) ∂μ = ENNReal.ofReal (alphaAt W lp l (update P (l + 1) y)) * (∫⁻ s, g (y, s) ∂μ) +
        ENNReal.ofReal (1 - alphaAt W lp l (update P (l + 1) y)) *
          expectAfter A W lp (fun y => ∫⁻ s, g (y, s) ∂μ) r (l + 1) (update P (l + 1) y) := by
      intro y
      have ihy := ih (l + 1) (by omega) (update P (l + 1) y)
      by_cases h0 : 0 < (pointAt lp y).density
      · simp only [F, if_pos h0]
        by_cases h1 : 0 < l ∧ 1 ≤ alphaAt W lp l (update P (l + 1) y)
        · simp only [if_pos h1]
          have : alphaAt W lp l (update P (l + 1) y) = 1 := le_antisymm (alphaAt_le_one _ _) h1.2
          simp [this]
        · simp only [if_neg h1]
          let H : ℝ × σ → ℝ≥0∞ := fun p => if p.1 < alphaAt W lp l (update P (l + 1) y) then g (y, p.2)
            else g (moveFrom D A W lp r (l + 1) (update P (l + 1) y) p.2)
          have hH : Measurable H := Measurable.ite (measurableSet_lt measurable_fst measurable_const)
            (hg.comp (measurable_const.prodMk measurable_snd))
            (hg.comp (hmv.comp (measurable_const.prodMk measurable_snd)))
          change ∫⁻ s, H (D.u s, D.afterU s) ∂μ = _
          haveI : SFinite uniformLaw := by unfold uniformLaw; infer_instance
          rw [D.lawU.lintegral_comp hH, lintegral_prod _ hH.aemeasurable,
            ← lintegral_uniform_lt (alphaAt_nonneg _ _) (alphaAt_le_one _ _)]
          refine lintegral_congr fun u => ?_
          by_cases hu : u < alphaAt W lp l (update P (l + 1) y)
          · simp only [H, if_pos hu]
          · simp only [H, if_neg hu, ihy]
      · have hz : alphaAt W lp l (update P (l + 1) y) = 0 := by
          refine alphaAt_outside ?_
          rw [update_self]
          by_contra hne
          exact h0 (density_pos_iff.2 hne)
        simp only [F, if_neg h0, hz, ihy]
        simp
    haveI : IsProbabilityMeasure (normalLaw n) := inferInstance
    simp only [e1]
    rw [D.lawZ.lintegral_comp hshift, lintegral_prod _ hshift.aemeasurable]
    have hEy : Measurable fun y => ∫⁻ s, F (y, s) ∂μ := hF.lintegral_prod_right'
    rw [lintegral_step (hAW l (by omega)) (P 0) hEy]
    simp only [e2]
    rfl

/-- The law "posterior for the values, ideal for the generator" is kept by an iteration of `K` stages. -/
theorem moveFrom_invariant (hd : Measurable fun x => (pointAt lp x).density) {K : ℕ}
    (hAW : ∀ k < K, A k * Matrix.of (W k) = 1) :
    MeasurePreserving (fun p : (Fin n → ℝ) × σ => moveFrom D A W lp K 0 (fun _ => p.1) p.2)
      ((volume.withDensity fun x => ENNReal.ofReal (pointAt lp x).density).prod μ)
      ((volume.withDensity fun x => ENNReal.ofReal (pointAt lp x).density).prod μ) := by
  have hmeas : Measurable fun p : (Fin n → ℝ) × σ => moveFrom D A W lp K 0 (fun _ => p.1) p.2 :=
    (measurable_moveFrom D hd K 0).comp ((measurable_pi_iff.2 fun _ => measurable_fst).prodMk measurable_snd)
  have hloc : ∀ (r l : ℕ) (P Q : ℕ → Fin n → ℝ), (∀ i ≤ l, P i = Q i) → ∀ g,
      expectAfter A W lp g r l P = expectAfter A W lp g r l Q := by
    intro r
    induction r with
    | zero => intro l P Q h g; simp only [expectAfter, h 0 (Nat.zero_le _)]
    | succ r ih =>
      intro l P Q h g
      have hu : ∀ y, ∀ i ≤ l + 1, update P (l + 1) y i = update Q (l + 1) y i := by
        intro y i hi
        by_cases hil : i = l + 1
        · subst hil; simp
        · rw [update_of_ne hil, update_of_ne hil, h i (by omega)]
      simp only [expectAfter, h 0 (Nat.zero_le _)]
      refine lintegral_congr fun y => ?_
      rw [alphaAt_congr (hu y), ih (l + 1) _ _ (hu y)]
  refine ⟨hmeas, Measure.ext_of_lintegral _ fun g hg => ?_⟩
  have hgb : Measurable fun y => ∫⁻ s, g (y, s) ∂μ := hg.lintegral_prod_right'
  have hgm : Measurable fun p : (Fin n → ℝ) × σ => g (moveFrom D A W lp K 0 (fun _ => p.1) p.2) :=
    hg.comp hmeas
  rw [lintegral_map hg hmeas, lintegral_prod _ hgm.aemeasurable, lintegral_prod _ hg.aemeasurable,
    lintegral_withDensity_eq_lintegral_mul _ hd.ennreal_ofReal hgm.lintegral_prod_right',
    lintegral_withDensity_eq_lintegral_mul _ hd.ennreal_ofReal hgb]
  simp only [Pi.mul_apply]
  rw [← expectAfter_start (A := A) (W := W) hd hAW hgb 0]
  refine lintegral_congr fun x => ?_
  rw [lintegral_moveFrom D hd hAW hg K 0 (by omega),
    hloc K 0 (fun _ => x) (update 0 0 x) fun i hi => by
      obtain rfl : i = 0 := by omega
      simp]

end

end Verif
