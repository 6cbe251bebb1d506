import Verif.Lemmas.FactorMove
import Verif.Lemmas.JointMove

/-! # Iterations that draw the error variances, with a proposal factor chosen by the history -/

set_option linter.unusedSectionVars false

namespace Verif
open MeasureTheory Finset Function ProbabilityTheory
open scoped ENNReal Matrix

section measurable
variable {n : ℕ} {σ : Type} [MeasurableSpace σ] {μ : Measure σ} {G : Rng σ XR}
  {Y : Type} [MeasurableSpace Y] {lp : Y → (Fin n → ℝ) → Option ℝ}
  {A : Y → ℕ → Fin n → Fin n → ℝ} {W : Y → ℕ → Fin n → Fin n → ℝ}

attribute [local irreducible] gauss propDensity

theorem measurable_alphaAt_both (hd : Measurable fun p : Y × (Fin n → ℝ) => (pointAt (lp p.1) p.2).density)
    (hW : Measurable W) (l : ℕ) :
    Measurable fun p : Y × (ℕ → Fin n → ℝ) => alphaAt (W p.1) (lp p.1) l p.2 := by
  induction l using Nat.strong_induction_on with
  | _ l ih =>
    have e : (fun p : Y × (ℕ → Fin n → ℝ) => alphaAt (W p.1) (lp p.1) l p.2) = fun p =>
        min 1 (((pointAt (lp p.1) (p.2 (l + 1))).density *
        (∏ k ∈ range (l + 1), gauss (W p.1 k) (p.2 (l + 1)) (p.2 (l - k))) *
        ∏ k : Fin l, (1 - alphaAt (W p.1) (lp p.1) k fun i => p.2 (l + 1 - i))) /
      ((pointAt (lp p.1) (p.2 0)).density * (∏ k ∈ range (l + 1), gauss (W p.1 k) (p.2 0) (p.2 (k + 1))) *
        ∏ k : Fin l, (1 - alphaAt (W p.1) (lp p.1) k p.2))) := by
      funext p
      unfold alphaAt
      rw [drAlpha]
      rfl
    rw [e]
    have h0 : ∀ i, Measurable fun p : Y × (ℕ → Fin n → ℝ) => p.2 i := fun i =>
      (measurable_pi_apply i).comp measurable_snd
    have h1 : ∀ i, Measurable fun p : Y × (ℕ → Fin n → ℝ) => (pointAt (lp p.1) (p.2 i)).density := fun i =>
      hd.comp (measurable_fst.prodMk (h0 i))
    have h2 : ∀ k i j, Measurable fun p : Y × (ℕ → Fin n → ℝ) => gauss (W p.1 k) (p.2 i) (p.2 j) := fun k i j =>
      measurable_gauss_factor (W := fun p : Y × (ℕ → Fin n → ℝ) => W p.1 k)
        ((measurable_pi_apply k).comp (hW.comp measurable_fst)) (h0 i) (h0 j)
    have h3 : Measurable fun p : Y × (ℕ → Fin n → ℝ) => (p.1, fun i => p.2 (l + 1 - i)) :=
      measurable_fst.prodMk (measurable_pi_iff.2 fun i => h0 _)
    refine measurable_const.min (Measurable.div ?_ ?_)
    · refine ((h1 _).mul (Finset.measurable_prod _ fun k _ => h2 _ _ _)).mul
        (Finset.measurable_prod _ fun k _ => measurable_const.sub ?_)
      exact (ih k k.isLt).comp h3
    · exact ((h1 _).mul (Finset.measurable_prod _ fun k _ => h2 _ _ _)).mul
        (Finset.measurable_prod _ fun k _ => measurable_const.sub (ih k k.isLt))

variable (D : IdealRng G n μ)

theorem measurable_stage_both (hd : Measurable fun p : Y × (Fin n → ℝ) => (pointAt (lp p.1) p.2).density)
    (hW : Measurable W) (l : ℕ) {β : Type} [MeasurableSpace β]
    {a b c d : (Y × (ℕ → Fin n → ℝ)) × (Fin n → ℝ) × σ → β}
    (ha : Measurable a) (hb : Measurable b) (hc : Measurable c) (hdm : Measurable d) :
    Measurable fun p : (Y × (ℕ → Fin n → ℝ)) × (Fin n → ℝ) × σ => open Classical in
      if 0 < (pointAt (lp p.1.1) p.2.1).density then
        if 0 < l ∧ 1 ≤ alphaAt (W p.1.1) (lp p.1.1) l (update p.1.2 (l + 1) p.2.1) then a p
        else if D.u p.2.2 < alphaAt (W p.1.1) (lp p.1.1) l (update p.1.2 (l + 1) p.2.1) then b p else c p
      else d p := by
  have hu : Measurable fun p : (Y × (ℕ → Fin n → ℝ)) × (Fin n → ℝ) × σ => update p.1.2 (l + 1) p.2.1 :=
    (measurable_update_path (l + 1)).comp
      ((measurable_snd.comp measurable_fst).prodMk (measurable_fst.comp measurable_snd))
  have hal : Measurable fun p : (Y × (ℕ → Fin n → ℝ)) × (Fin n → ℝ) × σ =>
      alphaAt (W p.1.1) (lp p.1.1) l (update p.1.2 (l + 1) p.2.1) :=
    (measurable_alphaAt_both hd hW l).comp ((measurable_fst.comp measurable_fst).prodMk hu)
  have hden : Measurable fun p : (Y × (ℕ → Fin n → ℝ)) × (Fin n → ℝ) × σ =>
      (pointAt (lp p.1.1) p.2.1).density :=
    hd.comp ((measurable_fst.comp measurable_fst).prodMk (measurable_fst.comp measurable_snd))
  refine Measurable.ite (measurableSet_lt measurable_const hden)
    (Measurable.ite ?_ ha (Measurable.ite ?_ hb hc)) hdm
  · by_cases h0 : 0 < l
    · simpa [h0] using measurableSet_le measurable_const hal
    · simp [h0]
  · exact measurableSet_lt (D.measurable_u.comp (measurable_snd.comp measurable_snd)) hal

theorem measurable_moveFrom_both (hd : Measurable fun p : Y × (Fin n → ℝ) => (pointAt (lp p.1) p.2).density)
    (hA : Measurable A) (hW : Measurable W) (r : ℕ) : ∀ l, Measurable fun p : (Y × (ℕ → Fin n → ℝ)) × σ =>
      moveFrom D (fun k => Matrix.of (A p.1.1 k)) (W p.1.1) (lp p.1.1) r l p.1.2 p.2 := by
  induction r with
  | zero =>
    exact fun l => ((measurable_pi_apply 0).comp (measurable_snd.comp measurable_fst)).prodMk measurable_snd
  | succ r ih =>
    intro l
    have h0 : Measurable fun p : (Y × (ℕ → Fin n → ℝ)) × σ => p.1.2 0 :=
      (measurable_pi_apply 0).comp (measurable_snd.comp measurable_fst)
    have hz : Measurable fun p : (Y × (ℕ → Fin n → ℝ)) × σ => D.z p.2 ᵥ* (Matrix.of (A p.1.1 l)) :=
      measurable_vecMul_factor (A := fun p : (Y × (ℕ → Fin n → ℝ)) × σ => A p.1.1 l)
        ((measurable_pi_apply l).comp (hA.comp (measurable_fst.comp measurable_fst)))
        (D.measurable_z.comp measurable_snd)
    have hT : Measurable fun p : (Y × (ℕ → Fin n → ℝ)) × σ =>
        (p.1, p.1.2 0 + D.z p.2 ᵥ* (Matrix.of (A p.1.1 l)), D.afterZ p.2) :=
      measurable_fst.prodMk ((h0.add hz).prodMk (D.measurable_afterZ.comp measurable_snd))
    have h1 : Measurable fun p : (Y × (ℕ → Fin n → ℝ)) × (Fin n → ℝ) × σ =>
        (p.1.1, update p.1.2 (l + 1) p.2.1) :=
      (measurable_fst.comp measurable_fst).prodMk ((measurable_update_path (l + 1)).comp
        ((measurable_snd.comp measurable_fst).prodMk (measurable_fst.comp measurable_snd)))
    have h2 : Measurable fun p : (Y × (ℕ → Fin n → ℝ)) × (Fin n → ℝ) × σ => D.afterU p.2.2 :=
      D.measurable_afterU.comp (measurable_snd.comp measurable_snd)
    have hS := measurable_stage_both D hd hW l (a := fun p => p.2)
      (b := fun p => (p.2.1, D.afterU p.2.2))
      (c := fun p => moveFrom D (fun k => Matrix.of (A p.1.1 k)) (W p.1.1) (lp p.1.1) r (l + 1)
        (update p.1.2 (l + 1) p.2.1) (D.afterU p.2.2))
      (d := fun p => moveFrom D (fun k => Matrix.of (A p.1.1 k)) (W p.1.1) (lp p.1.1) r (l + 1)
        (update p.1.2 (l + 1) p.2.1) p.2.2)
      measurable_snd ((measurable_fst.comp measurable_snd).prodMk h2)
      ((ih (l + 1)).comp (h1.prodMk h2)) ((ih (l + 1)).comp (h1.prodMk (measurable_snd.comp measurable_snd)))
    exact hS.comp hT

end measurable

section step
variable {n : ℕ} {σ : Type} [MeasurableSpace σ] {μ : Measure σ} {G : Rng σ XR}
  {Y : Type} [MeasurableSpace Y] {lp : Y → (Fin n → ℝ) → Option ℝ} (D : IdealRng G n μ)

open Classical in
/-- the proposals of an iteration with proposal factor `R`, given the variances -/
noncomputable def factorStep (lp : Y → (Fin n → ℝ) → Option ℝ) (ds : List ℝ) (ntry : ℤ) (R : Fin n → Fin n → ℝ)
    (p : ((Fin n → ℝ) × Y) × σ) : ((Fin n → ℝ) × Y) × σ :=
  if (Matrix.of R).det = 0 then p else
    moveStep D (fun k => Matrix.of (stageFactor ds ntry R k)) (stageInverse ds ntry R) lp (max 1 ntry.toNat) p

theorem factorStep_of_unit (ds : List ℝ) (ntry : ℤ) {R : Fin n → Fin n → ℝ} (hR : (Matrix.of R).det ≠ 0) :
    factorStep D lp ds ntry R =
      moveStep D (fun k => Matrix.of (stageFactor ds ntry R k)) (stageInverse ds ntry R) lp (max 1 ntry.toNat) :=
  funext fun _ => if_neg hR

theorem measurable_factorStep (hd : Measurable fun p : Y × (Fin n → ℝ) => (pointAt (lp p.1) p.2).density)
    (ds : List ℝ) (ntry : ℤ) :
    Measurable fun p : (Fin n → Fin n → ℝ) × ((Fin n → ℝ) × Y) × σ => factorStep D lp ds ntry p.1 p.2 := by
  refine Measurable.ite ?_ measurable_snd ?_
  · exact (measurable_matrix_det.comp measurable_fst) (measurableSet_singleton 0)
  · have hd' : Measurable fun p : ((Fin n → Fin n → ℝ) × Y) × (Fin n → ℝ) =>
        (pointAt ((fun y : (Fin n → Fin n → ℝ) × Y => lp y.2) p.1) p.2).density :=
      hd.comp ((measurable_snd.comp measurable_fst).prodMk measurable_snd)
    have h := measurable_moveFrom_both D (lp := fun y : (Fin n → Fin n → ℝ) × Y => lp y.2) hd'
      ((measurable_stageFactor (n := n) ds ntry).comp measurable_fst)
      ((measurable_stageInverse ds ntry).comp measurable_fst) (max 1 ntry.toNat) 0
    have hv : Measurable fun p : (Fin n → Fin n → ℝ) × ((Fin n → ℝ) × Y) × σ => p.2.1.2 :=
      measurable_snd.comp (measurable_fst.comp measurable_snd)
    have hx : Measurable fun p : (Fin n → Fin n → ℝ) × ((Fin n → ℝ) × Y) × σ => p.2.1.1 :=
      measurable_fst.comp (measurable_fst.comp measurable_snd)
    have h1 := h.comp (((measurable_fst.prodMk hv).prodMk (measurable_pi_iff.2 fun _ : ℕ => hx)).prodMk
      (measurable_snd.comp measurable_snd))
    exact ((measurable_fst.comp h1).prodMk hv).prodMk (measurable_snd.comp h1)

variable [IsProbabilityMeasure μ]

theorem fresh_factorStep (hd : Measurable fun p : Y × (Fin n → ℝ) => (pointAt (lp p.1) p.2).density) {ds : List ℝ}
    (h0 : ∀ d ∈ ds, d ≠ 0) (ntry : ℤ) (R : Fin n → Fin n → ℝ) : Fresh μ (factorStep D lp ds ntry R) := by
  by_cases hR : (Matrix.of R).det = 0
  · rw [show factorStep D lp ds ntry R = id from funext fun _ => if_pos hR]
    exact Fresh.id
  · rw [factorStep_of_unit D ds ntry hR]
    exact fresh_moveStep D hd fun k _ => stageFactor_inverse h0 ntry hR k

theorem factorStep_invariant (ν : Measure Y) [SFinite ν]
    (hd : Measurable fun p : Y × (Fin n → ℝ) => (pointAt (lp p.1) p.2).density) {ds : List ℝ}
    (h0 : ∀ d ∈ ds, d ≠ 0) (ntry : ℤ) {c : Y → ℝ≥0∞} {f : (Fin n → ℝ) × Y → ℝ≥0∞} (hf : Measurable f)
    (hfc : ∀ p, f p = c p.2 * ENNReal.ofReal (pointAt (lp p.2) p.1).density) (R : Fin n → Fin n → ℝ) :
    MeasurePreserving (factorStep D lp ds ntry R)
      ((((volume : Measure (Fin n → ℝ)).prod ν).withDensity f).prod μ)
      (((volume.prod ν).withDensity f).prod μ) := by
  by_cases hR : (Matrix.of R).det = 0
  · rw [show factorStep D lp ds ntry R = id from funext fun _ => if_pos hR]
    exact MeasurePreserving.id _
  · rw [factorStep_of_unit D ds ntry hR]
    exact moveStep_invariant D ν hd (fun k _ => stageFactor_inverse h0 ntry hR k) hf hfc

end step

section process
variable {X M σ : Type} [MeasurableSpace X] [MeasurableSpace M] [MeasurableSpace σ] {μ : Measure σ}
  [IsProbabilityMeasure μ] {T S : M → X × σ → X × σ} {next : ℕ → (ℕ → X × M) → M}

/-- After the first part `S` of an iteration the generator state has the law `μ`. -/
theorem histAfter_ae (hT : Measurable fun p : M × X × σ => T p.1 p.2) (hf : ∀ R, Fresh μ (T R))
    (hn : ∀ j, Measurable (next j)) (hS : Measurable fun p : M × X × σ => S p.1 p.2) (hfS : ∀ R, Fresh μ (S R))
    (x : X) (R : M) (j : ℕ) {B : σ → Prop} (hB : ∀ᵐ s ∂μ, B s) :
    ∀ᵐ s ∂μ, B (S ((histAfter T next x R j s).1 j).2
      (((histAfter T next x R j s).1 j).1, (histAfter T next x R j s).2)).2 := by
  obtain ⟨hm, hlaw⟩ := histAfter_fresh hT hf hn x R j
  have hS' : Measurable fun p : (ℕ → X × M) × σ => (S (p.1 j).2 ((p.1 j).1, p.2)).2 := by
    have h0 : Measurable fun p : (ℕ → X × M) × σ => p.1 j := (measurable_pi_apply j).comp measurable_fst
    exact measurable_snd.comp (hS.comp ((measurable_snd.comp h0).prodMk
      ((measurable_fst.comp h0).prodMk measurable_snd)))
  have key : MeasurePreserving (fun s => (S ((histAfter T next x R j s).1 j).2
      (((histAfter T next x R j s).1 j).1, (histAfter T next x R j s).2)).2) μ μ := by
    refine ⟨hS'.comp hm, Measure.ext_of_lintegral _ fun g hg => ?_⟩
    refine (lintegral_map hg (hS'.comp hm)).trans ?_
    refine (hlaw _ (hg.comp hS')).trans ?_
    have : ∀ s, ∫⁻ s', g (S ((histAfter T next x R j s).1 j).2
        (((histAfter T next x R j s).1 j).1, s')).2 ∂μ = ∫⁻ s', g s' ∂μ := fun s => by
      have h1 := (hfS ((histAfter T next x R j s).1 j).2).state ((histAfter T next x R j s).1 j).1
      rw [← h1.lintegral_comp hg]
    simp only [comp_apply, this, lintegral_const, measure_univ, mul_one]
  exact key.quasiMeasurePreserving.ae hB

end process

end Verif
