import Verif.Lemmas.Coverage
import Verif.Lemmas.WeakAverage

/-! # Quantiles of rows whose averages over finitely many events are right

As in `Lemmas/Coverage.lean`, for any rows: it suffices that the fractions of rows in finitely many events
are close to the probabilities of the events. -/

set_option linter.unusedSectionVars false

namespace Verif
open MeasureTheory Function
open scoped ENNReal

section rows
variable {X : Type} [MeasurableSpace X] {π : Measure X} [IsProbabilityMeasure π]

/-- finitely many events whose frequencies determine all fractions up to `η` -/
theorem exists_events {η : ℝ} (hη : 0 < η) {ι : Type} [Fintype ι] {g : ι → X → ℝ} (hg : ∀ i, Measurable (g i)) :
    ∃ (κ : Type) (_ : Fintype κ) (E : κ → Set X), (∀ c, MeasurableSet (E c)) ∧ ∀ (n : ℕ) (t : ℕ → X), 0 < n →
      (∀ c, |(∑ j ∈ Finset.range n, (E c).indicator (1 : X → ℝ) (t j)) / n - π.real (E c)| < η / 2) → ∀ i y,
      (∑ j ∈ Finset.range n, if g i (t j) ≤ y then (1 : ℝ) else 0) / n ≤ π.real {z | g i z ≤ y} + η ∧
      π.real {z | g i z < y} - η ≤ (∑ j ∈ Finset.range n, if g i (t j) < y then (1 : ℝ) else 0) / n := by
  classical
  have hp1 : ∀ i, IsProbabilityMeasure (π.map (g i)) := fun i => Measure.isProbabilityMeasure_map (hg i).aemeasurable
  have hgn : ∀ i, Measurable fun z => -g i z := fun i => (hg i).neg
  have hp2 : ∀ i, IsProbabilityMeasure (π.map fun z => -g i z) := fun i =>
    Measure.isProbabilityMeasure_map (hgn i).aemeasurable
  choose A1 hA1 using fun i => exists_grid (π.map (g i)) (η := η / 2) (by positivity)
  choose A2 hA2 using fun i => exists_grid (π.map fun z => -g i z) (η := η / 2) (by positivity)
  let κ := (Σ i, {a // a ∈ A1 i}) ⊕ (Σ i, {a // a ∈ A2 i})
  let E : κ → Set X := Sum.elim (fun c => {z | g c.1 z < c.2.1}) (fun c => {z | -g c.1 z < c.2.1})
  have hE : ∀ c, MeasurableSet (E c) := by
    rintro (c | c)
    · exact measurableSet_lt (hg c.1) measurable_const
    · exact measurableSet_lt (hgn c.1) measurable_const
  refine ⟨κ, inferInstance, E, hE, fun n t hn hgood i y => ?_⟩
  have hn0 : (0 : ℝ) < n := by exact_mod_cast hn
  have cnt : ∀ (P Q : ℕ → Prop) [DecidablePred P] [DecidablePred Q], (∀ j, P j → Q j) →
      (∑ j ∈ Finset.range n, if P j then (1 : ℝ) else 0) / n ≤ (∑ j ∈ Finset.range n, if Q j then (1 : ℝ) else 0) / n := by
    intro P Q _ _ h
    refine div_le_div_of_nonneg_right (Finset.sum_le_sum fun j _ => ?_) hn0.le
    by_cases hP : P j
    · rw [if_pos hP, if_pos (h j hP)]
    · rw [if_neg hP]; split <;> norm_num
  have cnt1 : ∀ (P : ℕ → Prop) [DecidablePred P], (∑ j ∈ Finset.range n, if P j then (1 : ℝ) else 0) / n ≤ 1 := by
    intro P _
    refine (cnt P (fun _ => True) fun _ _ => trivial).trans ?_
    simp [hn0.ne']
  have eind : ∀ (E : Set X), (∑ j ∈ Finset.range n, E.indicator (1 : X → ℝ) (t j)) =
      ∑ j ∈ Finset.range n, if (t j) ∈ E then (1 : ℝ) else 0 := fun E =>
    Finset.sum_congr rfl fun j _ => by simp [Set.indicator_apply]
  constructor
  · have e1 : (π.map (g i)).real (Set.Iic y) = π.real {z | g i z ≤ y} := map_measureReal_apply (hg i) measurableSet_Iic
    rcases hA1 i y with h | ⟨a, ha, hya, h⟩
    · rw [e1] at h
      exact (cnt1 _).trans (h.trans (by linarith))
    · have e2 : (π.map (g i)).real (Set.Iio a) = π.real {z | g i z < a} := map_measureReal_apply (hg i) measurableSet_Iio
      rw [e1, e2] at h
      have hc := (abs_lt.1 (hgood (.inl ⟨i, a, ha⟩))).2
      rw [eind] at hc
      have hle := cnt (fun j => g i (t j) ≤ y)
        (fun j => (t j) ∈ E (.inl ⟨i, a, ha⟩)) fun j hj => lt_of_le_of_lt hj hya
      have he : π.real (E (.inl ⟨i, a, ha⟩)) = π.real {z | g i z < a} := rfl
      linarith
  · have e1 : (π.map fun z => -g i z).real (Set.Iic (-y)) = 1 - π.real {z | g i z < y} := by
      rw [map_measureReal_apply (hgn i) measurableSet_Iic,
        ← probReal_compl_eq_one_sub (measurableSet_lt (hg i) measurable_const)]
      congr 1
      ext z
      simp
    have hsum : ∀ (P : ℕ → Prop) [DecidablePred P], (∑ j ∈ Finset.range n, if P j then (1 : ℝ) else 0) / n =
        1 - (∑ j ∈ Finset.range n, if ¬ P j then (1 : ℝ) else 0) / n := by
      intro P _
      rw [eq_sub_iff_add_eq, ← add_div, ← Finset.sum_add_distrib]
      have h1 : ∀ j, ((if P j then (1 : ℝ) else 0) + if ¬ P j then (1 : ℝ) else 0) = 1 := fun j => by
        by_cases h : P j <;> simp [h]
      rw [Finset.sum_congr rfl fun j _ => h1 j]
      simp [hn0.ne']
    rw [hsum]
    rcases hA2 i (-y) with h | ⟨a, ha, hya, h⟩
    · rw [e1] at h
      have := cnt1 fun j => ¬ g i (t j) < y
      linarith
    · have e2 : (π.map fun z => -g i z).real (Set.Iio a) = π.real {z | -g i z < a} :=
        map_measureReal_apply (hgn i) measurableSet_Iio
      rw [e1, e2] at h
      have hc := (abs_lt.1 (hgood (.inr ⟨i, a, ha⟩))).2
      rw [eind] at hc
      have hle := cnt (fun j => ¬ g i (t j) < y)
        (fun j => (t j) ∈ E (.inr ⟨i, a, ha⟩)) fun j hj => by
          change -g i _ < a
          have := not_lt.1 hj
          linarith
      have he : π.real (E (.inr ⟨i, a, ha⟩)) = π.real {z | -g i z < a} := rfl
      linarith

/-- empirical quantiles of functions of rows with the right fractions cut off the right probabilities -/
theorem quantiles_of_fractions {η : ℝ} (hη : 0 < η) {c : ℕ} {g : X → Fin c → ℝ} {n : ℕ} {t : ℕ → X} (hn : 2 ≤ n)
    (hn1' : 1 / (η / 2) ≤ n)
    (hgood : ∀ i y, (∑ j ∈ Finset.range n, if g (t j) i ≤ y then (1 : ℝ) else 0) / n ≤ π.real {z | g z i ≤ y} + η / 2 ∧
      π.real {z | g z i < y} - η / 2 ≤ (∑ j ∈ Finset.range n, if g (t j) i < y then (1 : ℝ) else 0) / n)
    (ps : List ℝ) (hps : ∀ p ∈ ps, 0 ≤ p ∧ p ≤ 1) : ∃ qs,
        empiricalQuantiles (List.ofFn fun j : Fin n => g (t j)) ps = .ok qs ∧ qs.length = ps.length ∧
        ∀ (a : ℕ) p q, ps[a]? = some p → qs[a]? = some q → ∀ i,
          p - η ≤ π.real {z | g z i ≤ q i} ∧ π.real {z | g z i < q i} ≤ p + η := by
  have hlen : (List.ofFn fun j : Fin n => g (t j)).length = n := List.length_ofFn
  have hn0 : (0 : ℝ) < n := by exact_mod_cast (by omega : 0 < n)
  have hn1 : 1 / (n : ℝ) ≤ η / 2 := by
    rw [one_div_le hn0 (by positivity)]
    exact hn1'
  refine ⟨_, empiricalQuantiles_ok (by rw [hlen]; omega) hps, by simp, fun a p q hp hq i => ?_⟩
  rw [List.getElem?_map, hp] at hq
  cases hq
  have hpm := hps p (List.mem_of_getElem? hp)
  set l := (List.ofFn fun j : Fin n => g (t j)).map fun r => r i with hl
  have hll : l.length = n := by rw [hl, List.length_map, hlen]
  obtain ⟨c1, c2⟩ := quantile_counts (l := l) (by rw [hll]; omega) hpm.1 hpm.2
  rw [hlen]
  rw [hll] at c1 c2
  set q := interpAt (l.insertionSort (· ≤ ·)) (((n : ℝ) - 1) * p)
  have hlf : l = List.ofFn fun j : Fin n => g (t j) i := by
    rw [hl, List.map_ofFn]; rfl
  rw [hlf, countP_ofFn] at c1 c2
  simp only [decide_eq_true_eq] at c1 c2
  rw [Fin.sum_univ_eq_sum_range (fun j => if g (t j) i ≤ q then (1 : ℝ) else 0) n] at c1
  rw [Fin.sum_univ_eq_sum_range (fun j => if g (t j) i < q then (1 : ℝ) else 0) n] at c2
  obtain ⟨f1, f2⟩ := hgood i q
  rw [div_le_iff₀ hn0] at f1
  rw [le_div_iff₀ hn0] at f2
  have hn2 : 1 ≤ n * (η / 2) := by rwa [div_le_iff₀ hn0, mul_comm] at hn1
  constructor
  · by_contra hlt
    have := mul_lt_mul_of_pos_right (not_le.1 hlt) hn0
    nlinarith
  · by_contra hlt
    have := mul_lt_mul_of_pos_right (not_le.1 hlt) hn0
    nlinarith

end rows

section moments
variable {X σ : Type} [MeasurableSpace X] [MeasurableSpace σ] {μ : Measure σ} [IsProbabilityMeasure μ]
  {π : Measure X} [IsProbabilityMeasure π]

/-- the average of a function with values in `[0, 1]`, over the rows after a burn-in no longer than the rest -/
theorem window_of_moment {row : ℕ → σ → X} (hrow : ∀ j, Measurable (row j)) {b n : ℕ} (hn : 0 < n) (hb : b ≤ n) {W : ℝ}
    (hmom : ∀ m ≤ b + n, ∀ F : X → ℝ, Measurable F → (∀ y, 0 ≤ F y) → (∀ y, F y ≤ 1) →
      ∫ s, (∑ j ∈ Finset.range m, (F (row j s) - ∫ y, F y ∂π)) ^ 2 ∂μ ≤ W)
    {h : X → ℝ} (hf : Measurable h) (h01 : ∀ y, 0 ≤ h y ∧ h y ≤ 1) {δ : ℝ} (hδ : 0 < δ) :
    μ.real {s | δ ≤ |(∑ j ∈ Finset.range n, h (row (b + j) s)) / n - ∫ y, h y ∂π|} ≤
      128 * W / (n ^ 2 * δ ^ 2) := by
  have hn0 : (0 : ℝ) < n := by exact_mod_cast hn
  have hbn : (b : ℝ) ≤ n := by exact_mod_cast hb
  have hb0 : (0 : ℝ) ≤ b := Nat.cast_nonneg b
  have hbn0 : (0 : ℝ) < ((b + n : ℕ) : ℝ) := by push_cast; positivity
  have hW : 0 ≤ W := (integral_nonneg fun s => sq_nonneg _).trans
    (hmom 0 (by omega) (fun _ => 0) measurable_const (fun _ => le_rfl) (fun _ => zero_le_one))
  have hfc : ∀ x ∈ (Set.univ : Set X), |h x| ≤ 1 := fun x _ => abs_le.2 ⟨by linarith [(h01 x).1], (h01 x).2⟩
  set f : ℕ → σ → ℝ := fun j s => h (row j s)
  set p := ∫ y, h y ∂π
  have h1 : μ.real {s | δ / 4 ≤ |(∑ j ∈ Finset.range (b + n), f j s) / ((b + n : ℕ) : ℝ) - p|} ≤
      64 * W / (n ^ 2 * δ ^ 2) := by
    have := average_of_moment (μ := μ) (π := π) hrow (S := Set.univ) (fun _ _ => Set.mem_univ _) (by simp)
      (by omega : 0 < b + n) (hmom (b + n) le_rfl) hf one_pos hfc (η := δ / 4) (by positivity)
    refine this.trans ?_
    rw [div_le_div_iff₀ (by positivity) (by positivity)]
    have h2 : (n : ℝ) ^ 2 ≤ ((b + n : ℕ) : ℝ) ^ 2 := by
      apply pow_le_pow_left₀ hn0.le
      push_cast; linarith
    have := mul_le_mul_of_nonneg_left h2 (show 0 ≤ 4 * W * δ ^ 2 by positivity)
    nlinarith
  have h2 : μ.real {s | n * (δ / 4) ≤ |(∑ j ∈ Finset.range b, f j s) - b * p|} ≤ 64 * W / (n ^ 2 * δ ^ 2) := by
    rcases Nat.eq_zero_or_pos b with rfl | hb1
    · have : {s | n * (δ / 4) ≤ |(∑ j ∈ Finset.range 0, f j s) - ((0 : ℕ) : ℝ) * p|} = (∅ : Set σ) := by
        ext s
        simp only [Set.mem_ofPred_eq, Finset.range_zero, Finset.sum_empty, Nat.cast_zero, zero_mul, sub_zero, abs_zero,
          Set.mem_empty_iff_false, iff_false, not_le]
        positivity
      rw [this]
      simp only [measureReal_empty]
      positivity
    · have hb1' : (0 : ℝ) < b := by exact_mod_cast hb1
      have := average_of_moment (μ := μ) (π := π) hrow (S := Set.univ) (fun _ _ => Set.mem_univ _) (by simp)
        hb1 (hmom b (by omega)) hf one_pos hfc (η := n * (δ / 4) / b) (by positivity)
      refine (measureReal_mono fun s hs => ?_).trans (this.trans (le_of_eq ?_))
      · change n * (δ / 4) / b ≤ |(∑ j ∈ Finset.range b, f j s) / b - p|
        have h3 : (∑ j ∈ Finset.range b, f j s) / b - p = ((∑ j ∈ Finset.range b, f j s) - b * p) / b := by
          field_simp
        rw [h3, abs_div, abs_of_pos hb1']
        exact div_le_div_of_nonneg_right hs hb1'.le
      · field_simp
        ring
  have hsub : {s | δ ≤ |(∑ j ∈ Finset.range n, f (b + j) s) / n - p|} ⊆
      {s | δ / 4 ≤ |(∑ j ∈ Finset.range (b + n), f j s) / ((b + n : ℕ) : ℝ) - p|} ∪
      {s | n * (δ / 4) ≤ |(∑ j ∈ Finset.range b, f j s) - b * p|} := by
    intro s hs
    by_contra hc
    rw [Set.mem_union, not_or] at hc
    obtain ⟨c1, c2⟩ := hc
    have c1 : |(∑ j ∈ Finset.range (b + n), f j s) / ((b + n : ℕ) : ℝ) - p| < δ / 4 := not_le.1 fun h => c1 h
    have c2 : |(∑ j ∈ Finset.range b, f j s) - b * p| < n * (δ / 4) := not_le.1 fun h => c2 h
    have h3 : (∑ j ∈ Finset.range (b + n), f j s) / ((b + n : ℕ) : ℝ) - p =
        ((∑ j ∈ Finset.range (b + n), f j s) - ((b + n : ℕ) : ℝ) * p) / ((b + n : ℕ) : ℝ) := by
      field_simp
    rw [h3, abs_div, abs_of_pos hbn0, div_lt_iff₀ hbn0] at c1
    rw [Finset.sum_range_add (fun j => f j s) b n] at c1
    push_cast at c1
    have h4 : (∑ j ∈ Finset.range n, f (b + j) s) / n - p = ((∑ j ∈ Finset.range n, f (b + j) s) - n * p) / n := by
      field_simp
    have hs : δ ≤ |(∑ j ∈ Finset.range n, f (b + j) s) / n - p| := hs
    rw [h4, abs_div, abs_of_pos hn0, le_div_iff₀ hn0] at hs
    have h5 : |(∑ j ∈ Finset.range n, f (b + j) s) - n * p| ≤
        |∑ j ∈ Finset.range b, f j s + ∑ j ∈ Finset.range n, f (b + j) s - (b + n) * p| +
        |(∑ j ∈ Finset.range b, f j s) - b * p| := by
      have e : (∑ j ∈ Finset.range n, f (b + j) s) - n * p =
          (∑ j ∈ Finset.range b, f j s + ∑ j ∈ Finset.range n, f (b + j) s - (b + n) * p) -
          ((∑ j ∈ Finset.range b, f j s) - b * p) := by ring
      rw [e]
      exact abs_sub _ _
    have h6 : δ * b ≤ δ * n := mul_le_mul_of_nonneg_left hbn hδ.le
    have h7 : 0 < δ * n := by positivity
    nlinarith
  refine (measureReal_mono hsub).trans ((measureReal_union_le _ _).trans ?_)
  refine (add_le_add h1 h2).trans (le_of_eq ?_)
  ring

/-- the same for finitely many functions at once -/
theorem windows_of_moment {row : ℕ → σ → X} (hrow : ∀ j, Measurable (row j)) {b n : ℕ} (hn : 0 < n) (hb : b ≤ n) {W : ℝ}
    (hmom : ∀ m ≤ b + n, ∀ F : X → ℝ, Measurable F → (∀ y, 0 ≤ F y) → (∀ y, F y ≤ 1) →
      ∫ s, (∑ j ∈ Finset.range m, (F (row j s) - ∫ y, F y ∂π)) ^ 2 ∂μ ≤ W)
    {κ : Type} [Fintype κ] {h : κ → X → ℝ} (hh : ∀ c, Measurable (h c))
    (h01 : ∀ c y, 0 ≤ h c y ∧ h c y ≤ 1) {δ : ℝ} (hδ : 0 < δ) :
    ∃ B, MeasurableSet B ∧ μ.real B ≤ Fintype.card κ * (128 * W / (n ^ 2 * δ ^ 2)) ∧ ∀ s, s ∉ B → ∀ c,
      |(∑ j ∈ Finset.range n, h c (row (b + j) s)) / n - ∫ y, h c y ∂π| < δ := by
  refine ⟨⋃ c, {s | δ ≤ |(∑ j ∈ Finset.range n, h c (row (b + j) s)) / n - ∫ y, h c y ∂π|},
    MeasurableSet.iUnion fun c => measurableSet_le measurable_const ?_, ?_, fun s hs c => ?_⟩
  · have h1 : Measurable fun s => ∑ j ∈ Finset.range n, h c (row (b + j) s) :=
      Finset.measurable_sum _ fun j _ => (hh c).comp (hrow _)
    exact ((h1.div_const _).sub_const _).abs
  · refine (measureReal_iUnion_fintype_le _).trans ?_
    refine (Finset.sum_le_sum fun c _ => window_of_moment hrow hn hb hmom (hh c) (h01 c) hδ).trans (le_of_eq ?_)
    rw [Finset.sum_const, Finset.card_univ, nsmul_eq_mul]
  · by_contra hc
    exact hs (Set.mem_iUnion.2 ⟨c, not_lt.1 hc⟩)

/-- the same, with the moment bounds of adaptive chains -/
theorem windows_bound {row : ℕ → σ → X} (hrow : ∀ j, Measurable (row j)) {K J : ℕ} {p : ℕ → ℝ} (hp : ∀ j, 0 ≤ p j)
    {κ : Type} [Fintype κ] {h : κ → X → ℝ} (hh : ∀ c, Measurable (h c))
    (h01 : ∀ c y, 0 ≤ h c y ∧ h c y ≤ 1) {δ e : ℝ} (hδ : 0 < δ) (he : 0 < e)
    (hmom : ∀ m : ℕ, ∀ F : X → ℝ, Measurable F → (∀ y, 0 ≤ F y) → (∀ y, F y ≤ 1) →
      ∫ s, (∑ j ∈ Finset.range m, (F (row j s) - ∫ y, F y ∂π)) ^ 2 ∂μ ≤
        m * (1 + 2 * K + 2 * J) + 2 * m * ∑ j ∈ Finset.Ico J m,
          2 * (e * δ ^ 2 / (4096 * (Fintype.card κ + 1)) + p j))
    {b n : ℕ} (hn : 0 < n) (hb : b ≤ n) (hn0 : 512 * Fintype.card κ * (1 + 2 * K + 2 * J) / (δ ^ 2 * e) ≤ n) :
    ∃ B, MeasurableSet B ∧
      μ.real B ≤ e + Fintype.card κ * 1024 / δ ^ 2 * ((∑ j ∈ Finset.Ico J (b + n), p j) / n) ∧ ∀ s, s ∉ B → ∀ c,
      |(∑ j ∈ Finset.range n, h c (row (b + j) s)) / n - ∫ y, h c y ∂π| < δ := by
  have hnr : (0 : ℝ) < n := by exact_mod_cast hn
  have hbr : (b : ℝ) ≤ n := by exact_mod_cast hb
  have hb0 : (0 : ℝ) ≤ b := Nat.cast_nonneg b
  set M : ℝ := ((Fintype.card κ : ℕ) : ℝ) with hM
  have hM0 : 0 ≤ M := Nat.cast_nonneg _
  set e' := e * δ ^ 2 / (4096 * (M + 1)) with he'
  have he'0 : 0 < e' := by positivity
  set cs := ∑ j ∈ Finset.Ico J (b + n), p j with hcs
  have hcs0 : 0 ≤ cs := Finset.sum_nonneg fun j _ => hp j
  have hW : ∀ m ≤ b + n, ∀ F : X → ℝ, Measurable F → (∀ y, 0 ≤ F y) → (∀ y, F y ≤ 1) →
      ∫ s, (∑ j ∈ Finset.range m, (F (row j s) - ∫ y, F y ∂π)) ^ 2 ∂μ ≤
        2 * n * (1 + 2 * K + 2 * J) + 16 * n ^ 2 * e' + 8 * n * cs := by
    intro m hm F hF hF0 hF1
    refine (hmom m F hF hF0 hF1).trans ?_
    have hmr : (m : ℝ) ≤ 2 * n := by
      have : (m : ℝ) ≤ ((b + n : ℕ) : ℝ) := by exact_mod_cast hm
      push_cast at this
      linarith
    have h1 : ∑ j ∈ Finset.Ico J m, 2 * (e' + p j) ≤ 2 * (2 * n * e' + cs) := by
      rw [← Finset.mul_sum, Finset.sum_add_distrib]
      have h2 : ∑ _j ∈ Finset.Ico J m, e' ≤ 2 * n * e' := by
        rw [Finset.sum_const, Nat.card_Ico, nsmul_eq_mul]
        apply mul_le_mul_of_nonneg_right _ he'0.le
        have : ((m - J : ℕ) : ℝ) ≤ m := by exact_mod_cast Nat.sub_le _ _
        linarith
      have h3 : ∑ j ∈ Finset.Ico J m, p j ≤ cs :=
        Finset.sum_le_sum_of_subset_of_nonneg (Finset.Ico_subset_Ico_right hm) fun j _ _ => hp j
      linarith
    have h0 : 0 ≤ 2 * (2 * n * e' + cs) := by positivity
    have h2 : 2 * (m : ℝ) * ∑ j ∈ Finset.Ico J m, 2 * (e' + p j) ≤ 2 * (2 * n) * (2 * (2 * n * e' + cs)) := by
      refine (mul_le_mul_of_nonneg_left h1 (by positivity)).trans ?_
      apply mul_le_mul_of_nonneg_right _ h0
      linarith
    have h3 : (m : ℝ) * (1 + 2 * K + 2 * J) ≤ 2 * n * (1 + 2 * K + 2 * J) :=
      mul_le_mul_of_nonneg_right hmr (by positivity)
    nlinarith
  obtain ⟨B, hB, hBW, hgood⟩ := windows_of_moment hrow hn hb hW hh h01 hδ
  refine ⟨B, hB, hBW.trans ?_, hgood⟩
  have h1 : M * (128 * (2 * n * (1 + 2 * K + 2 * J) + 16 * n ^ 2 * e' + 8 * n * cs) / (n ^ 2 * δ ^ 2)) =
      256 * M * (1 + 2 * K + 2 * J) / (δ ^ 2 * n) + e / 2 * (M / (M + 1)) + M * 1024 / δ ^ 2 * (cs / n) := by
    rw [he']
    field_simp
    ring
  rw [h1]
  have h2 : M / (M + 1) ≤ 1 := by
    rw [div_le_one (by positivity)]
    linarith
  have h3 : 256 * M * (1 + 2 * K + 2 * J) / (δ ^ 2 * n) ≤ e / 2 := by
    rw [div_le_iff₀ (by positivity)] at hn0 ⊢
    linarith
  have h4 : e / 2 * (M / (M + 1)) ≤ e / 2 * 1 := mul_le_mul_of_nonneg_left h2 (by positivity)
  linarith

/-- functions that are 1 on an event and 0 elsewhere -/
theorem indicator_unit (E : Set X) (y : X) :
    0 ≤ E.indicator (1 : X → ℝ) y ∧ E.indicator (1 : X → ℝ) y ≤ 1 := by
  by_cases h : y ∈ E
  · rw [Set.indicator_of_mem h]; simp
  · rw [Set.indicator_of_notMem h]; simp

end moments

end Verif
