import Verif.Lemmas.MoveLower
import Mathlib.Probability.Kernel.Invariance

/-! # Iterations whose proposal factor is chosen by the history -/

namespace Verif
open MeasureTheory Finset Function ProbabilityTheory
open scoped ENNReal Matrix

section measurable
variable {n : ℕ} {σ : Type} [MeasurableSpace σ] {μ : Measure σ} {G : Rng σ XR}
  {Y : Type} [MeasurableSpace Y] {lp : (Fin n → ℝ) → Option ℝ}
  {A : Y → ℕ → Fin n → Fin n → ℝ} {W : Y → ℕ → Fin n → Fin n → ℝ}

theorem measurable_gauss_factor {W : Y → Fin n → Fin n → ℝ} (hW : Measurable W)
    {f g : Y → Fin n → ℝ} (hf : Measurable f) (hg : Measurable g) :
    Measurable fun a => gauss (W a) (f a) (g a) := by
  unfold gauss
  refine Real.measurable_exp.comp (Measurable.const_mul ?_ _)
  refine Finset.measurable_sum _ fun j _ => Measurable.pow_const ?_ 2
  refine Finset.measurable_sum _ fun i _ => Measurable.mul ?_ ?_
  · exact ((measurable_pi_apply i).comp hg).sub ((measurable_pi_apply i).comp hf)
  · exact (measurable_pi_apply j).comp ((measurable_pi_apply i).comp hW)

attribute [local irreducible] gauss propDensity

theorem measurable_alphaAt_factor (hd : Measurable fun x => (pointAt lp x).density) (hW : Measurable W)
    (l : ℕ) : Measurable fun p : Y × (ℕ → Fin n → ℝ) => alphaAt (W p.1) lp l p.2 := by
  induction l using Nat.strong_induction_on with
  | _ l ih =>
    have e : (fun p : Y × (ℕ → Fin n → ℝ) => alphaAt (W p.1) lp l p.2) = fun p =>
        min 1 (((pointAt lp (p.2 (l + 1))).density *
        (∏ k ∈ range (l + 1), gauss (W p.1 k) (p.2 (l + 1)) (p.2 (l - k))) *
        ∏ k : Fin l, (1 - alphaAt (W p.1) lp k fun i => p.2 (l + 1 - i))) /
      ((pointAt lp (p.2 0)).density * (∏ k ∈ range (l + 1), gauss (W p.1 k) (p.2 0) (p.2 (k + 1))) *
        ∏ k : Fin l, (1 - alphaAt (W p.1) lp k p.2))) := by
      funext p
      unfold alphaAt
      rw [drAlpha]
      rfl
    rw [e]
    have h0 : ∀ i, Measurable fun p : Y × (ℕ → Fin n → ℝ) => p.2 i := fun i =>
      (measurable_pi_apply i).comp measurable_snd
    have h1 : ∀ i, Measurable fun p : Y × (ℕ → Fin n → ℝ) => (pointAt lp (p.2 i)).density := fun i =>
      hd.comp (h0 i)
    have h2 : ∀ k i j, Measurable fun p : Y × (ℕ → Fin n → ℝ) => gauss (W p.1 k) (p.2 i) (p.2 j) := fun k i j =>
      measurable_gauss_factor (W := fun p : Y × (ℕ → Fin n → ℝ) => W p.1 k)
        ((measurable_pi_apply k).comp (hW.comp measurable_fst)) (h0 i) (h0 j)
    have h3 : Measurable fun p : Y × (ℕ → Fin n → ℝ) => (p.1, fun i => p.2 (l + 1 - i)) :=
      measurable_fst.prodMk (measurable_pi_iff.2 fun i => h0 _)
    refine measurable_const.min (Measurable.div ?_ ?_)
    · refine ((h1 _).mul (Finset.measurable_prod _ fun k _ => h2 _ _ _)).mul
        (Finset.measurable_prod _ fun k _ => measurable_const.sub ?_)
      exact (ih k k.isLt).comp h3
    · exact ((h1 _).mul (Finset.measurable_prod _ fun k _ => h2 _ _ _)).mul
        (Finset.measurable_prod _ fun k _ => measurable_const.sub (ih k k.isLt))

variable (D : IdealRng G n μ)

theorem measurable_stage_factor (hd : Measurable fun x => (pointAt lp x).density) (hW : Measurable W)
    (l : ℕ) {β : Type} [MeasurableSpace β] {a b c d : (Y × (ℕ → Fin n → ℝ)) × (Fin n → ℝ) × σ → β}
    (ha : Measurable a) (hb : Measurable b) (hc : Measurable c) (hdm : Measurable d) :
    Measurable fun p : (Y × (ℕ → Fin n → ℝ)) × (Fin n → ℝ) × σ => open Classical in
      if 0 < (pointAt lp p.2.1).density then
        if 0 < l ∧ 1 ≤ alphaAt (W p.1.1) lp l (update p.1.2 (l + 1) p.2.1) then a p
        else if D.u p.2.2 < alphaAt (W p.1.1) lp l (update p.1.2 (l + 1) p.2.1) then b p else c p
      else d p := by
  have hu : Measurable fun p : (Y × (ℕ → Fin n → ℝ)) × (Fin n → ℝ) × σ => update p.1.2 (l + 1) p.2.1 :=
    (measurable_update_path (l + 1)).comp
      ((measurable_snd.comp measurable_fst).prodMk (measurable_fst.comp measurable_snd))
  have hal : Measurable fun p : (Y × (ℕ → Fin n → ℝ)) × (Fin n → ℝ) × σ =>
      alphaAt (W p.1.1) lp l (update p.1.2 (l + 1) p.2.1) :=
    (measurable_alphaAt_factor hd hW l).comp ((measurable_fst.comp measurable_fst).prodMk hu)
  have hden : Measurable fun p : (Y × (ℕ → Fin n → ℝ)) × (Fin n → ℝ) × σ =>
      (pointAt lp p.2.1).density := hd.comp (measurable_fst.comp measurable_snd)
  refine Measurable.ite (measurableSet_lt measurable_const hden)
    (Measurable.ite ?_ ha (Measurable.ite ?_ hb hc)) hdm
  · by_cases h0 : 0 < l
    · simpa [h0] using measurableSet_le measurable_const hal
    · simp [h0]
  · exact measurableSet_lt (D.measurable_u.comp (measurable_snd.comp measurable_snd)) hal

theorem measurable_vecMul_factor {A : Y → Fin n → Fin n → ℝ} (hA : Measurable A) {z : Y → Fin n → ℝ}
    (hz : Measurable z) : Measurable fun p => z p ᵥ* (Matrix.of (A p)) := by
  refine measurable_pi_iff.2 fun i => ?_
  simp only [Matrix.vecMul, dotProduct]
  exact Finset.measurable_sum _ fun j _ => ((measurable_pi_apply j).comp hz).mul
    ((measurable_pi_apply i).comp ((measurable_pi_apply j).comp hA))

theorem measurable_moveFrom_factor (hd : Measurable fun x => (pointAt lp x).density) (hA : Measurable A)
    (hW : Measurable W) (r : ℕ) : ∀ l, Measurable fun p : (Y × (ℕ → Fin n → ℝ)) × σ =>
      moveFrom D (fun k => Matrix.of (A p.1.1 k)) (W p.1.1) lp r l p.1.2 p.2 := by
  induction r with
  | zero =>
    exact fun l => ((measurable_pi_apply 0).comp (measurable_snd.comp measurable_fst)).prodMk measurable_snd
  | succ r ih =>
    intro l
    have h0 : Measurable fun p : (Y × (ℕ → Fin n → ℝ)) × σ => p.1.2 0 :=
      (measurable_pi_apply 0).comp (measurable_snd.comp measurable_fst)
    have hz : Measurable fun p : (Y × (ℕ → Fin n → ℝ)) × σ => D.z p.2 ᵥ* (Matrix.of (A p.1.1 l)) :=
      measurable_vecMul_factor (A := fun p : (Y × (ℕ → Fin n → ℝ)) × σ => A p.1.1 l)
        ((measurable_pi_apply l).comp (hA.comp (measurable_fst.comp measurable_fst)))
        (D.measurable_z.comp measurable_snd)
    have hT : Measurable fun p : (Y × (ℕ → Fin n → ℝ)) × σ =>
        (p.1, p.1.2 0 + D.z p.2 ᵥ* (Matrix.of (A p.1.1 l)), D.afterZ p.2) :=
      measurable_fst.prodMk ((h0.add hz).prodMk (D.measurable_afterZ.comp measurable_snd))
    have h1 : Measurable fun p : (Y × (ℕ → Fin n → ℝ)) × (Fin n → ℝ) × σ =>
        (p.1.1, update p.1.2 (l + 1) p.2.1) :=
      (measurable_fst.comp measurable_fst).prodMk ((measurable_update_path (l + 1)).comp
        ((measurable_snd.comp measurable_fst).prodMk (measurable_fst.comp measurable_snd)))
    have h2 : Measurable fun p : (Y × (ℕ → Fin n → ℝ)) × (Fin n → ℝ) × σ => D.afterU p.2.2 :=
      D.measurable_afterU.comp (measurable_snd.comp measurable_snd)
    have hS := measurable_stage_factor D hd hW l (a := fun p => p.2)
      (b := fun p => (p.2.1, D.afterU p.2.2))
      (c := fun p => moveFrom D (fun k => Matrix.of (A p.1.1 k)) (W p.1.1) lp r (l + 1)
        (update p.1.2 (l + 1) p.2.1) (D.afterU p.2.2))
      (d := fun p => moveFrom D (fun k => Matrix.of (A p.1.1 k)) (W p.1.1) lp r (l + 1)
        (update p.1.2 (l + 1) p.2.1) p.2.2)
      measurable_snd ((measurable_fst.comp measurable_snd).prodMk h2)
      ((ih (l + 1)).comp (h1.prodMk h2)) ((ih (l + 1)).comp (h1.prodMk (measurable_snd.comp measurable_snd)))
    exact hS.comp hT

end measurable

/-! ### Processes whose transition is chosen by the history -/

section process
variable {X M σ : Type} [MeasurableSpace X] [MeasurableSpace M] [MeasurableSpace σ] {μ : Measure σ}

/-- one iteration: from row `j` and factor `j` of the history to row `j + 1`; then the factor for the
next iteration -/
def histStep (T : M → X × σ → X × σ) (next : ℕ → (ℕ → X × M) → M) (j : ℕ)
    (p : (ℕ → X × M) × σ) : (ℕ → X × M) × σ :=
  (update p.1 (j + 1) ((T (p.1 j).2 ((p.1 j).1, p.2)).1, next j p.1),
    (T (p.1 j).2 ((p.1 j).1, p.2)).2)

/-- history and generator state after `j` iterations -/
def histAfter (T : M → X × σ → X × σ) (next : ℕ → (ℕ → X × M) → M) (x : X) (R : M) :
    ℕ → σ → (ℕ → X × M) × σ
  | 0, s => (fun _ => (x, R), s)
  | j + 1, s => histStep T next j (histAfter T next x R j s)

variable {T : M → X × σ → X × σ} {next : ℕ → (ℕ → X × M) → M} {x : X} {R : M}

theorem histAfter_stable {i j : ℕ} (h : i ≤ j) (s : σ) :
    (histAfter T next x R j s).1 i = (histAfter T next x R i s).1 i := by
  induction j with
  | zero => obtain rfl : i = 0 := by omega
            rfl
  | succ j ih =>
    rcases Nat.lt_or_ge j i with h1 | h1
    · obtain rfl : i = j + 1 := by omega
      rfl
    · rw [← ih h1]
      change update _ (j + 1) _ i = _
      rw [update_of_ne (by omega)]

theorem measurable_histStep (hT : Measurable fun p : M × X × σ => T p.1 p.2) (hn : ∀ j, Measurable (next j))
    (j : ℕ) : Measurable (histStep T next j) := by
  have h1 : Measurable fun p : (ℕ → X × M) × σ => T (p.1 j).2 ((p.1 j).1, p.2) := by
    have h0 : Measurable fun p : (ℕ → X × M) × σ => p.1 j := (measurable_pi_apply j).comp measurable_fst
    exact hT.comp ((measurable_snd.comp h0).prodMk ((measurable_fst.comp h0).prodMk measurable_snd))
  refine Measurable.prodMk ?_ (measurable_snd.comp h1)
  refine measurable_pi_iff.2 fun i => ?_
  by_cases hi : i = j + 1
  · subst hi
    simp only [update_self]
    exact (measurable_fst.comp h1).prodMk ((hn j).comp measurable_fst)
  · simp only [update_of_ne hi]
    exact (measurable_pi_apply i).comp measurable_fst

variable [IsProbabilityMeasure μ]

theorem fresh_histStep (hT : Measurable fun p : M × X × σ => T p.1 p.2) (hf : ∀ R, Fresh μ (T R))
    (hn : ∀ j, Measurable (next j)) (j : ℕ) : Fresh μ (histStep T next j) := by
  refine ⟨measurable_histStep hT hn j, fun h g hg => ?_⟩
  exact (hf (h j).2).indep (h j).1 (fun p => g (update h (j + 1) (p.1, next j h), p.2))
    (hg.comp (Measurable.prodMk (measurable_pi_iff.2 fun i => by
      by_cases hi : i = j + 1
      · subst hi
        simp only [update_self]
        exact measurable_fst.prodMk measurable_const
      · simp only [update_of_ne hi]
        exact measurable_const) measurable_snd))

theorem histAfter_fresh (hT : Measurable fun p : M × X × σ => T p.1 p.2) (hf : ∀ R, Fresh μ (T R))
    (hn : ∀ j, Measurable (next j)) (x : X) (R : M) (j : ℕ) :
    Measurable (histAfter T next x R j) ∧ ∀ g : (ℕ → X × M) × σ → ℝ≥0∞, Measurable g →
      ∫⁻ s, g (histAfter T next x R j s) ∂μ =
        ∫⁻ s, ∫⁻ s', g ((histAfter T next x R j s).1, s') ∂μ ∂μ := by
  have key : ∀ j, ∃ S : (ℕ → X × M) × σ → (ℕ → X × M) × σ, Fresh μ S ∧
      ∀ s, histAfter T next x R j s = S (fun _ => (x, R), s) := by
    intro j
    induction j with
    | zero => exact ⟨id, Fresh.id, fun s => rfl⟩
    | succ j ih =>
      obtain ⟨S, h1, h2⟩ := ih
      exact ⟨_, (fresh_histStep hT hf hn j).comp h1, fun s => by
        rw [comp_apply, ← h2]; rfl⟩
  obtain ⟨S, h1, h2⟩ := key j
  have e : histAfter T next x R j = fun s => S (fun _ => (x, R), s) := funext h2
  refine ⟨?_, fun g hg => ?_⟩
  · rw [e]; exact h1.measurable.comp (measurable_const.prodMk measurable_id)
  · rw [e]; exact h1.indep _ g hg

/-- the row reached from `x` with factor `R`, as a kernel -/
noncomputable def rowKernel (μ : Measure σ) (S : X × σ → X × σ) (hS : Measurable S) [SFinite μ] :
    Kernel X X where
  toFun x := μ.map fun s => (S (x, s)).1
  measurable' := by
    refine Measure.measurable_of_measurable_coe _ fun B hB => ?_
    have h1 : Measurable fun p : X × σ => (S p).1 := measurable_fst.comp hS
    have e : (fun x => (μ.map fun s => (S (x, s)).1) B) =
        fun x => μ (Prod.mk x ⁻¹' ((fun p : X × σ => (S p).1) ⁻¹' B)) := by
      funext x
      have h2 : Measurable fun s => (S (x, s)).1 := h1.comp measurable_prodMk_left
      rw [Measure.map_apply h2 hB]
      rfl
    rw [e]
    exact measurable_measure_prodMk_left (h1 hB)

theorem rowKernel_apply {S : X × σ → X × σ} (hS : Measurable S) (x : X) {B : Set X} (hB : MeasurableSet B) :
    rowKernel μ S hS x B = μ {s | (S (x, s)).1 ∈ B} := by
  change (μ.map fun s => (S (x, s)).1) B = _
  have h2 : Measurable fun s => (S (x, s)).1 := measurable_fst.comp (hS.comp measurable_prodMk_left)
  rw [Measure.map_apply h2 hB]
  rfl

theorem rowKernel_markov {S : X × σ → X × σ} (hS : Measurable S) : IsMarkovKernel (rowKernel μ S hS) :=
  ⟨fun _ => Measure.isProbabilityMeasure_map
    (measurable_fst.comp (hS.comp (measurable_const.prodMk measurable_id))).aemeasurable⟩

theorem rowKernel_invariant {S : X × σ → X × σ} (hS : Measurable S) {π : Measure X} [SFinite π]
    (h : MeasurePreserving S (π.prod μ) (π.prod μ)) : (rowKernel μ S hS).Invariant π := by
  refine Measure.ext fun B hB => ?_
  rw [Measure.bind_apply hB (rowKernel μ S hS).aemeasurable]
  simp only [rowKernel_apply hS _ hB]
  have h1 : MeasurableSet ((fun p : X × σ => (S p).1) ⁻¹' B) := (measurable_fst.comp hS) hB
  have e1 := Measure.prod_apply (μ := π) (ν := μ) h1
  have e2 : (π.prod μ) ((fun p : X × σ => (S p).1) ⁻¹' B) = π B := by
    have := h.measure_preimage (s := Prod.fst ⁻¹' B) (measurable_fst hB).nullMeasurableSet
    rw [show Prod.fst ⁻¹' B = B ×ˢ (Set.univ : Set σ) by ext; simp, Measure.prod_prod, measure_univ, mul_one] at this
    rw [← this]
    congr 1
    ext p; simp
  rw [← e2, e1]
  rfl

/-- Given the history, the next row has the law of the transition for the current factor. -/
theorem histAfter_law (hT : Measurable fun p : M × X × σ => T p.1 p.2) (hf : ∀ R, Fresh μ (T R))
    (hn : ∀ j, Measurable (next j)) (x : X) (R : M) (j : ℕ) {B : Set X} (hB : MeasurableSet B)
    {g : (ℕ → X × M) → ℝ≥0∞} (hg : Measurable g) :
    ∫⁻ s in {s | ((histAfter T next x R (j + 1) s).1 (j + 1)).1 ∈ B}, g (histAfter T next x R j s).1 ∂μ =
      ∫⁻ s, μ {s' | (T ((histAfter T next x R j s).1 j).2 (((histAfter T next x R j s).1 j).1, s')).1 ∈ B} *
        g (histAfter T next x R j s).1 ∂μ := by
  obtain ⟨hm, hlaw⟩ := histAfter_fresh hT hf hn x R j
  have hm1 := (histAfter_fresh hT hf hn x R (j + 1)).1
  have hset : MeasurableSet {s | ((histAfter T next x R (j + 1) s).1 (j + 1)).1 ∈ B} :=
    (measurable_fst.comp ((measurable_pi_apply (j + 1)).comp (measurable_fst.comp hm1))) hB
  let S : Set ((ℕ → X × M) × σ) := {p | (T (p.1 j).2 ((p.1 j).1, p.2)).1 ∈ B}
  have hS : MeasurableSet S := by
    have h0 : Measurable fun p : (ℕ → X × M) × σ => p.1 j := (measurable_pi_apply j).comp measurable_fst
    exact (measurable_fst.comp (hT.comp ((measurable_snd.comp h0).prodMk
      ((measurable_fst.comp h0).prodMk measurable_snd)))) hB
  rw [← lintegral_indicator hset]
  have hGm : Measurable (S.indicator fun p : (ℕ → X × M) × σ => g p.1) :=
    (hg.comp measurable_fst).indicator hS
  have e1 := hlaw _ hGm
  have e2 : (fun s => S.indicator (fun p : (ℕ → X × M) × σ => g p.1) (histAfter T next x R j s)) =
      {s | ((histAfter T next x R (j + 1) s).1 (j + 1)).1 ∈ B}.indicator
        fun s => g (histAfter T next x R j s).1 := by
    funext s
    have : s ∈ {s | ((histAfter T next x R (j + 1) s).1 (j + 1)).1 ∈ B} ↔ histAfter T next x R j s ∈ S := by
      simp only [Set.mem_setOf_eq, histAfter, histStep, update_self, S]
    by_cases h : histAfter T next x R j s ∈ S
    · rw [Set.indicator_of_mem h, Set.indicator_of_mem (this.2 h)]
    · rw [Set.indicator_of_notMem h, Set.indicator_of_notMem (fun h' => h (this.1 h'))]
  rw [← e2, e1]
  refine lintegral_congr fun s => ?_
  set h := (histAfter T next x R j s).1
  have hSh : MeasurableSet {s' | (T (h j).2 ((h j).1, s')).1 ∈ B} :=
    (measurable_prodMk_left (x := h)) hS
  have e3 : (fun s' => S.indicator (fun p : (ℕ → X × M) × σ => g p.1) (h, s')) =
      {s' | (T (h j).2 ((h j).1, s')).1 ∈ B}.indicator fun _ => g h := by
    funext s'
    have : s' ∈ {s' | (T (h j).2 ((h j).1, s')).1 ∈ B} ↔ (h, s') ∈ S := Iff.rfl
    by_cases hs : (h, s') ∈ S
    · rw [Set.indicator_of_mem hs, Set.indicator_of_mem (this.2 hs)]
    · rw [Set.indicator_of_notMem hs, Set.indicator_of_notMem (fun h' => hs (this.1 h'))]
  rw [e3, lintegral_indicator_const hSh, mul_comm]

end process

end Verif
