import Verif.Lemmas.Estimates
import Verif.Props.Quantiles
import Mathlib.Probability.CDF

/-! # Quantiles of the rows and quantiles of the posterior

The fraction of rows with a value up to `y` is close to the posterior probability of such values, for all `y`
at once (`Harris.fractions`), and at an empirical quantile the fraction is known (`quantile_counts`). -/

set_option linter.unusedSectionVars false

namespace Verif
open MeasureTheory Function

/-! ### Fractions at an empirical quantile -/

theorem countP_ofFn {α : Type} {n : ℕ} (f : Fin n → α) (P : α → Bool) :
    (((List.ofFn f).countP P : ℕ) : ℝ) = ∑ j, if P (f j) then 1 else 0 := by
  induction n with
  | zero => simp
  | succ n ih =>
    rw [List.ofFn_succ, List.countP_cons, Fin.sum_univ_succ]
    push_cast
    rw [ih]
    split <;> simp [add_comm]

theorem countP_le_of_sorted {ys : List ℝ} (hs : ys.Pairwise (· ≤ ·)) {i : ℕ} (hi : i < ys.length) {q : ℝ}
    (hq : ys.getD i 0 ≤ q) : i + 1 ≤ ys.countP fun y => decide (y ≤ q) := by
  have h1 : (ys.take (i + 1)).countP (fun y => decide (y ≤ q)) = i + 1 := by
    have : ∀ y ∈ ys.take (i + 1), decide (y ≤ q) = true := by
      intro y hy
      obtain ⟨j, hj, rfl⟩ := List.getElem_of_mem hy
      rw [List.length_take] at hj
      rw [decide_eq_true_iff, List.getElem_take]
      have := getD_mono hs (i := j) (j := i) (by omega) hi
      have e : ys.getD j 0 = ys[j]'(by omega) := by
        rw [List.getD_eq_getElem?_getD, List.getElem?_eq_getElem (by omega)]; rfl
      rw [e] at this
      exact this.trans hq
    rw [List.countP_eq_length.2 this, List.length_take]
    omega
  conv_rhs => rw [← List.take_append_drop (i + 1) ys, List.countP_append, h1]
  omega

theorem countP_lt_of_sorted {ys : List ℝ} (hs : ys.Pairwise (· ≤ ·)) {i : ℕ} (hi : i < ys.length) {q : ℝ}
    (hq : q ≤ ys.getD i 0) : ys.countP (fun y => decide (y < q)) ≤ i := by
  have h1 : (ys.drop i).countP (fun y => decide (y < q)) = 0 := by
    rw [List.countP_eq_zero]
    intro y hy
    obtain ⟨j, hj, rfl⟩ := List.getElem_of_mem hy
    rw [List.length_drop] at hj
    rw [List.getElem_drop, decide_eq_true_iff, not_lt]
    have := getD_mono hs (i := i) (j := i + j) (by omega) (by omega)
    have e : ys.getD (i + j) 0 = ys[i + j]'(by omega) := by
      rw [List.getD_eq_getElem?_getD, List.getElem?_eq_getElem (by omega)]; rfl
    rw [e] at this
    exact hq.trans this
  conv_lhs => rw [← List.take_append_drop i ys, List.countP_append, h1]
  have := List.countP_le_length (p := fun y => decide (y < q)) (l := ys.take i)
  rw [List.length_take] at this
  omega

/-- the fraction of values up to an empirical quantile is at least its level, and the fraction below it at most,
up to one value -/
theorem quantile_counts {l : List ℝ} (hn : 2 ≤ l.length) {p : ℝ} (h0 : 0 ≤ p) (h1 : p ≤ 1) :
    l.length * p - 1 ≤ (l.countP fun y =>
      decide (y ≤ interpAt (l.insertionSort (· ≤ ·)) (((l.length : ℝ) - 1) * p)) : ℕ) ∧
    ((l.countP fun y => decide (y < interpAt (l.insertionSort (· ≤ ·)) (((l.length : ℝ) - 1) * p)) : ℕ) : ℝ) ≤
      l.length * p + 1 := by
  have hs : (l.insertionSort (· ≤ ·)).Pairwise (· ≤ ·) := List.pairwise_insertionSort _ _
  have hlen : (l.insertionSort (· ≤ ·)).length = l.length := List.length_insertionSort _ _
  have hperm := List.perm_insertionSort (· ≤ ·) l
  have hl : (2 : ℝ) ≤ l.length := by exact_mod_cast hn
  set t := ((l.length : ℝ) - 1) * p with ht
  have t0 : 0 ≤ t := mul_nonneg (by linarith) h0
  have t1 : t ≤ ((l.insertionSort (· ≤ ·)).length : ℝ) - 1 := by
    rw [hlen, ht]
    have := mul_le_mul_of_nonneg_left h1 (show (0 : ℝ) ≤ (l.length : ℝ) - 1 by linarith)
    linarith
  obtain ⟨b1, b2⟩ := interpAt_between hs (by rw [hlen]; exact hn) t0 t1
  obtain ⟨s1, s2, s3, -⟩ := interpAt_spec (ys := l.insertionSort (· ≤ ·)) (by rw [hlen]; exact hn) t0 t1
  have c1 := countP_le_of_sorted hs (by omega) b1
  have c2 := countP_lt_of_sorted hs s1 b2
  rw [hperm.countP_eq] at c1 c2
  have c1' := (Nat.cast_le (α := ℝ)).2 c1
  have c2' := (Nat.cast_le (α := ℝ)).2 c2
  push_cast at c1' c2'
  constructor
  · nlinarith
  · nlinarith

/-! ### A grid of points that determines a distribution up to `η` -/

theorem exists_grid (ν : Measure ℝ) [IsProbabilityMeasure ν] {η : ℝ} (hη : 0 < η) :
    ∃ A : Finset ℝ, ∀ y, 1 ≤ ν.real (Set.Iic y) + η ∨
      ∃ a ∈ A, y < a ∧ ν.real (Set.Iio a) ≤ ν.real (Set.Iic y) + η := by
  have hF : ∀ y, ν.real (Set.Iic y) = ProbabilityTheory.cdf ν y := fun y => (ProbabilityTheory.cdf_eq_real ν y).symm
  -- the smallest point with at least `u` below or at it
  have hq : ∀ u : ℝ, 0 < u → u < 1 → ∃ a, u ≤ ν.real (Set.Iic a) ∧ ν.real (Set.Iio a) ≤ u := by
    intro u u0 u1
    set S := {z : ℝ | u ≤ ProbabilityTheory.cdf ν z} with hS
    have hne : S.Nonempty := by
      have := (ProbabilityTheory.tendsto_cdf_atTop ν).eventually (lt_mem_nhds u1)
      obtain ⟨z, hz⟩ := this.exists
      exact ⟨z, hz.le⟩
    obtain ⟨w, hw⟩ : ∃ w, ∀ z ≤ w, ProbabilityTheory.cdf ν z < u :=
      Filter.eventually_atBot.1 ((ProbabilityTheory.tendsto_cdf_atBot ν).eventually (gt_mem_nhds u0))
    have hbdd : BddBelow S := ⟨w, fun z hz => by
      by_contra h
      exact absurd (hw z (not_le.1 h).le) (not_lt.2 hz)⟩
    refine ⟨sInf S, ?_, ?_⟩
    · rw [hF]
      have hc := (ProbabilityTheory.cdf ν).right_continuous (sInf S)
      refine ge_of_tendsto (hc.tendsto.mono_left (nhdsWithin_mono _ Set.Ioi_subset_Ici_self)) ?_
      filter_upwards [self_mem_nhdsWithin] with z hz
      obtain ⟨z', hz', hlt⟩ := exists_lt_of_csInf_lt hne hz
      exact le_trans hz' ((ProbabilityTheory.cdf ν).mono hlt.le)
    · have hU : Set.Iio (sInf S) = ⋃ n : ℕ, Set.Iic (sInf S - 1 / ((n : ℝ) + 1)) := by
        ext z
        simp only [Set.mem_Iio, Set.mem_iUnion, Set.mem_Iic]
        constructor
        · intro hz
          obtain ⟨n, hn⟩ := exists_nat_one_div_lt (sub_pos.2 hz)
          exact ⟨n, by linarith⟩
        · rintro ⟨n, hn⟩
          have : (0 : ℝ) < 1 / ((n : ℝ) + 1) := by positivity
          linarith
      have hmono : Monotone fun n : ℕ => Set.Iic (sInf S - 1 / ((n : ℝ) + 1)) := by
        intro a b hab
        refine Set.Iic_subset_Iic.2 ?_
        have : 1 / ((b : ℝ) + 1) ≤ 1 / ((a : ℝ) + 1) := Nat.one_div_le_one_div hab
        linarith
      have ht := tendsto_measure_iUnion_atTop (μ := ν) hmono
      rw [← hU] at ht
      have ht' := (ENNReal.tendsto_toReal (measure_ne_top ν _)).comp ht
      refine le_of_tendsto ht' (Filter.Eventually.of_forall fun n => ?_)
      have hlt : sInf S - 1 / ((n : ℝ) + 1) < sInf S := by
        have : (0 : ℝ) < 1 / ((n : ℝ) + 1) := by positivity
        linarith
      have := notMem_of_lt_csInf hlt hbdd
      rw [hS, Set.mem_ofPred_eq, not_le, ← hF] at this
      exact this.le
  classical
  obtain ⟨M, hM⟩ := exists_nat_gt (1 / η)
  have hM0 : (0 : ℝ) < M := (one_div_pos.2 hη).trans hM
  have hMη : 1 / (M : ℝ) < η := by rw [one_div_lt hM0 hη]; exact hM
  choose! a ha1 ha2 using hq
  refine ⟨(Finset.range M).image fun j : ℕ => a (j / M), fun y => ?_⟩
  set F := ν.real (Set.Iic y) with hFy
  have hF0 : 0 ≤ F := measureReal_nonneg
  by_cases h1 : 1 ≤ F + η
  · exact .inl h1
  right
  set j := ⌊F * M⌋₊ + 1 with hj
  have hfl : (⌊F * M⌋₊ : ℝ) ≤ F * M := Nat.floor_le (by positivity)
  have hfl2 : F * M < (j : ℝ) := by rw [hj]; push_cast; exact Nat.lt_floor_add_one _
  have hjM : (j : ℝ) / M ≤ F + η := by
    rw [div_le_iff₀ hM0, hj]
    push_cast
    have : 1 < η * M := by rwa [div_lt_iff₀ hη, mul_comm] at hM
    nlinarith
  have hj1 : (j : ℝ) / M < 1 := by linarith [not_le.1 h1]
  have hj0 : (0 : ℝ) < j / M := by positivity
  have hjF : F < j / M := by rwa [lt_div_iff₀ hM0]
  refine ⟨a (j / M), Finset.mem_image.2 ⟨j, Finset.mem_range.2 ?_, rfl⟩, ?_, (ha2 _ hj0 hj1).trans hjM⟩
  · rw [div_lt_one hM0] at hj1; exact_mod_cast hj1
  · by_contra hle
    have := measureReal_mono (μ := ν) (Set.Iic_subset_Iic.2 (not_lt.1 hle))
    linarith [ha1 _ hj0 hj1]

section harris
variable {X σ : Type} [MeasurableSpace X] [MeasurableSpace σ] {μ : Measure σ} [IsProbabilityMeasure μ]
  {T : X × σ → X × σ} {π : Measure X}

/-- averages of finitely many functions with values in `[0,1]`, over the rows after any burn-in no longer than
the rest -/
theorem Harris.windowFn (H : Harris μ T π) {S : Set X} (hS : MeasurableSet S)
    (hsp : ∀ x ∈ S, Spreads μ T π x)
    (keep : ∀ x ∈ S, ∀ᵐ s ∂μ, (T (x, s)).1 ∈ S) (hπS : π Sᶜ = 0) {x : X} (hx : x ∈ S) {η ε : ℝ}
    (hη : 0 < η) (hε : 0 < ε) {ι : Type} [Fintype ι] {h : ι → X → ℝ} (hf : ∀ i, Measurable (h i))
    (h01 : ∀ i y, 0 ≤ h i y ∧ h i y ≤ 1) :
    ∃ K : ℕ, 0 < K ∧ ∀ n b, K ≤ n → b ≤ n → ∃ B, MeasurableSet B ∧ μ.real B ≤ ε ∧ ∀ s, s ∉ B → ∀ i,
      |(∑ j ∈ Finset.range n, h i (T^[b + j] (x, s)).1) / n - ∫ y, h i y ∂π| < η := by
  have := H.prob
  have hint : ∀ i, Integrable (h i) π := fun i => Integrable.of_mem_Icc 0 1 (hf i).aemeasurable (ae_of_all _ (h01 i))
  obtain ⟨K, hK⟩ := H.averages hS hsp keep hπS hx (η := η / 8) (ε := ε / 2) (by positivity) (by positivity) hf hint
  obtain ⟨K2, hK2⟩ := exists_nat_gt ((K : ℝ) / (η / 8))
  refine ⟨K + K2 + 1, by omega, fun n b hn hb => ?_⟩
  let Bad : ℕ → Set σ := fun k => {s | ∃ i, η / 8 ≤
    |(∑ j ∈ Finset.range k, h i (T^[j] (x, s)).1) / k -
      ∫ y, h i y ∂π|}
  have hBad : ∀ k, MeasurableSet (Bad k) := fun k => measurableSet_averages H.fresh x k (η / 8) hf _
  have hn0 : (0 : ℝ) < n := by exact_mod_cast (by omega : 0 < n)
  refine ⟨Bad (b + n) ∪ if K ≤ b then Bad b else ∅, (hBad _).union ?_, ?_,
    fun s hs i => ?_⟩
  · split
    · exact hBad _
    · exact .empty
  · refine (measureReal_union_le _ _).trans ?_
    have h1 := hK (b + n) (by omega)
    have h2 : μ.real (if K ≤ b then Bad b else ∅) ≤ ε / 2 := by
      split
      · exact hK b (by assumption)
      · simp; positivity
    calc _ ≤ ε / 2 + ε / 2 := add_le_add h1 h2
      _ = ε := by ring
  · rw [Set.mem_union, not_or] at hs
    set m := ∫ y, h i y ∂π
    have hm0 : 0 ≤ m := integral_nonneg fun y => (h01 i y).1
    have hm1 : m ≤ 1 := by
      have := integral_mono (hint i) (integrable_const (1 : ℝ)) fun y => (h01 i y).2
      simpa using this
    set f : ℕ → ℝ := fun j => h i (T^[j] (x, s)).1
    have hf0 : ∀ j, 0 ≤ f j ∧ f j ≤ 1 := fun j => h01 i _
    have hbn : (b : ℝ) ≤ n := by exact_mod_cast hb
    have h1 : |(∑ j ∈ Finset.range (b + n), f j) - ((b + n : ℕ) : ℝ) * m| ≤ (b + n) * (η / 8) := by
      have h2 : ¬ η / 8 ≤ |(∑ j ∈ Finset.range (b + n), f j) / ((b + n : ℕ) : ℝ) - m| := fun h =>
        hs.1 ⟨i, h⟩
      have hk : (0 : ℝ) < ((b + n : ℕ) : ℝ) := by push_cast; positivity
      have h3 : (∑ j ∈ Finset.range (b + n), f j) - ((b + n : ℕ) : ℝ) * m =
          ((∑ j ∈ Finset.range (b + n), f j) / ((b + n : ℕ) : ℝ) - m) * ((b + n : ℕ) : ℝ) := by
        field_simp
      rw [h3, abs_mul, abs_of_pos hk, mul_comm]
      rw [show (b : ℝ) + n = ((b + n : ℕ) : ℝ) by push_cast; ring]
      exact mul_le_mul_of_nonneg_left (not_le.1 h2).le hk.le
    have h2 : |(∑ j ∈ Finset.range b, f j) - b * m| ≤ n * (η / 8) := by
      by_cases hKb : K ≤ b
      · rw [if_pos hKb] at hs
        rcases Nat.eq_zero_or_pos b with rfl | hb0
        · simp; positivity
        · have h2 : ¬ η / 8 ≤ |(∑ j ∈ Finset.range b, f j) / b - m| := fun h =>
            hs.2 ⟨i, h⟩
          have hk : (0 : ℝ) < b := by exact_mod_cast hb0
          have h3 : (∑ j ∈ Finset.range b, f j) - b * m = ((∑ j ∈ Finset.range b, f j) / b - m) * b := by
            field_simp
          rw [h3, abs_mul, abs_of_pos hk, mul_comm]
          exact mul_le_mul hbn (not_le.1 h2).le (abs_nonneg _) hn0.le
      · have hbK : (b : ℝ) ≤ K := by exact_mod_cast (not_le.1 hKb).le
        have hKn : (K : ℝ) ≤ n * (η / 8) := by
          rw [div_lt_iff₀ (by positivity)] at hK2
          refine hK2.le.trans (mul_le_mul_of_nonneg_right ?_ (by positivity))
          exact_mod_cast (by omega : K2 ≤ n)
        have hsum0 : 0 ≤ ∑ j ∈ Finset.range b, f j := Finset.sum_nonneg fun j _ => (hf0 j).1
        have hsum1 : ∑ j ∈ Finset.range b, f j ≤ b := by
          calc _ ≤ ∑ _j ∈ Finset.range b, (1 : ℝ) := Finset.sum_le_sum fun j _ => (hf0 j).2
            _ = b := by simp
        have hb0 : (0 : ℝ) ≤ b := Nat.cast_nonneg b
        rw [abs_le]
        constructor <;> nlinarith
    have hsplit : ∑ j ∈ Finset.range (b + n), f j = ∑ j ∈ Finset.range b, f j + ∑ j ∈ Finset.range n, f (b + j) :=
      Finset.sum_range_add f b n
    rw [hsplit] at h1
    push_cast at h1
    change |(∑ j ∈ Finset.range n, f (b + j)) / n - m| < η
    have h3 : (∑ j ∈ Finset.range n, f (b + j)) / n - m = ((∑ j ∈ Finset.range n, f (b + j)) - n * m) / n := by
      field_simp
    rw [h3, abs_div, abs_of_pos hn0, div_lt_iff₀ hn0]
    rw [abs_le] at h1 h2
    rw [abs_lt]
    have hnη : 0 < n * η := by positivity
    have hbη : (b : ℝ) * η ≤ n * η := mul_le_mul_of_nonneg_right hbn hη.le
    constructor <;> nlinarith

/-- fractions of rows in finitely many events, over the rows after any burn-in no longer than the rest -/
theorem Harris.window (H : Harris μ T π) {S : Set X} (hS : MeasurableSet S)
    (hsp : ∀ x ∈ S, Spreads μ T π x)
    (keep : ∀ x ∈ S, ∀ᵐ s ∂μ, (T (x, s)).1 ∈ S) (hπS : π Sᶜ = 0) {x : X} (hx : x ∈ S) {η ε : ℝ}
    (hη : 0 < η) (hε : 0 < ε) {ι : Type} [Fintype ι] {E : ι → Set X} (hE : ∀ i, MeasurableSet (E i)) :
    ∃ K : ℕ, 0 < K ∧ ∀ n b, K ≤ n → b ≤ n → ∃ B, MeasurableSet B ∧ μ.real B ≤ ε ∧ ∀ s, s ∉ B → ∀ i,
      |(∑ j ∈ Finset.range n, (E i).indicator 1 (T^[b + j] (x, s)).1) / n - π.real (E i)| < η := by
  obtain ⟨K, hK0, hK⟩ := H.windowFn hS hsp keep hπS hx hη hε (h := fun i => (E i).indicator 1)
    (fun i => measurable_one.indicator (hE i)) fun i y => by
      by_cases h : y ∈ E i
      · rw [Set.indicator_of_mem h]; simp
      · rw [Set.indicator_of_notMem h]; simp
  refine ⟨K, hK0, fun n b hn hb => ?_⟩
  obtain ⟨B, h1, h2, h3⟩ := hK n b hn hb
  refine ⟨B, h1, h2, fun s hs i => ?_⟩
  have := h3 s hs i
  rwa [integral_indicator_one (hE i)] at this

/-- the fractions of rows with a value up to, or below, `y` follow the posterior probabilities, for all `y`
at once -/
theorem Harris.fractions (H : Harris μ T π) {S : Set X} (hS : MeasurableSet S)
    (hsp : ∀ x ∈ S, Spreads μ T π x)
    (keep : ∀ x ∈ S, ∀ᵐ s ∂μ, (T (x, s)).1 ∈ S) (hπS : π Sᶜ = 0) {x : X} (hx : x ∈ S) {η ε : ℝ}
    (hη : 0 < η) (hε : 0 < ε) {ι : Type} [Fintype ι] {g : ι → X → ℝ} (hg : ∀ i, Measurable (g i)) :
    ∃ K : ℕ, 0 < K ∧ ∀ n b, K ≤ n → b ≤ n → ∃ B, MeasurableSet B ∧ μ.real B ≤ ε ∧ ∀ s, s ∉ B → ∀ i y,
      (∑ j ∈ Finset.range n, if g i (T^[b + j] (x, s)).1 ≤ y then (1 : ℝ) else 0) / n ≤
        π.real {z | g i z ≤ y} + η ∧
      π.real {z | g i z < y} - η ≤
        (∑ j ∈ Finset.range n, if g i (T^[b + j] (x, s)).1 < y then (1 : ℝ) else 0) / n := by
  classical
  have hprob := H.prob
  have hp1 : ∀ i, IsProbabilityMeasure (π.map (g i)) := fun i => Measure.isProbabilityMeasure_map (hg i).aemeasurable
  have hgn : ∀ i, Measurable fun z => -g i z := fun i => (hg i).neg
  have hp2 : ∀ i, IsProbabilityMeasure (π.map fun z => -g i z) := fun i =>
    Measure.isProbabilityMeasure_map (hgn i).aemeasurable
  choose A1 hA1 using fun i => exists_grid (π.map (g i)) (η := η / 2) (by positivity)
  choose A2 hA2 using fun i => exists_grid (π.map fun z => -g i z) (η := η / 2) (by positivity)
  let κ := (Σ i, {a // a ∈ A1 i}) ⊕ (Σ i, {a // a ∈ A2 i})
  let E : κ → Set X := Sum.elim (fun c => {z | g c.1 z < c.2.1}) (fun c => {z | -g c.1 z < c.2.1})
  have hE : ∀ c, MeasurableSet (E c) := by
    rintro (c | c)
    · exact measurableSet_lt (hg c.1) measurable_const
    · exact measurableSet_lt (hgn c.1) measurable_const
  obtain ⟨K, hK0, hK⟩ := H.window hS hsp keep hπS hx (η := η / 2) (by positivity) hε hE
  refine ⟨K, hK0, fun n b hn hb => ?_⟩
  obtain ⟨B, hB, hBε, hgood⟩ := hK n b hn hb
  refine ⟨B, hB, hBε, fun s hs i y => ?_⟩
  have hn0 : (0 : ℝ) < n := by exact_mod_cast (by omega : 0 < n)
  have cnt : ∀ (P Q : ℕ → Prop) [DecidablePred P] [DecidablePred Q], (∀ j, P j → Q j) →
      (∑ j ∈ Finset.range n, if P j then (1 : ℝ) else 0) / n ≤ (∑ j ∈ Finset.range n, if Q j then (1 : ℝ) else 0) / n := by
    intro P Q _ _ h
    refine div_le_div_of_nonneg_right (Finset.sum_le_sum fun j _ => ?_) hn0.le
    by_cases hP : P j
    · rw [if_pos hP, if_pos (h j hP)]
    · rw [if_neg hP]; split <;> norm_num
  have cnt1 : ∀ (P : ℕ → Prop) [DecidablePred P], (∑ j ∈ Finset.range n, if P j then (1 : ℝ) else 0) / n ≤ 1 := by
    intro P _
    refine (cnt P (fun _ => True) fun _ _ => trivial).trans ?_
    simp [hn0.ne']
  have eind : ∀ (E : Set X), (∑ j ∈ Finset.range n, E.indicator (1 : X → ℝ) (T^[b + j] (x, s)).1) =
      ∑ j ∈ Finset.range n, if (T^[b + j] (x, s)).1 ∈ E then (1 : ℝ) else 0 := fun E =>
    Finset.sum_congr rfl fun j _ => by simp [Set.indicator_apply]
  constructor
  · have e1 : (π.map (g i)).real (Set.Iic y) = π.real {z | g i z ≤ y} := map_measureReal_apply (hg i) measurableSet_Iic
    rcases hA1 i y with h | ⟨a, ha, hya, h⟩
    · rw [e1] at h
      exact (cnt1 _).trans (h.trans (by linarith))
    · have e2 : (π.map (g i)).real (Set.Iio a) = π.real {z | g i z < a} := map_measureReal_apply (hg i) measurableSet_Iio
      rw [e1, e2] at h
      have hc := (abs_lt.1 (hgood s hs (.inl ⟨i, a, ha⟩))).2
      rw [eind] at hc
      have hle := cnt (fun j => g i (T^[b + j] (x, s)).1 ≤ y)
        (fun j => (T^[b + j] (x, s)).1 ∈ E (.inl ⟨i, a, ha⟩)) fun j hj => lt_of_le_of_lt hj hya
      have he : π.real (E (.inl ⟨i, a, ha⟩)) = π.real {z | g i z < a} := rfl
      linarith
  · have e1 : (π.map fun z => -g i z).real (Set.Iic (-y)) = 1 - π.real {z | g i z < y} := by
      rw [map_measureReal_apply (hgn i) measurableSet_Iic,
        ← probReal_compl_eq_one_sub (measurableSet_lt (hg i) measurable_const)]
      congr 1
      ext z
      simp
    have hsum : ∀ (P : ℕ → Prop) [DecidablePred P], (∑ j ∈ Finset.range n, if P j then (1 : ℝ) else 0) / n =
        1 - (∑ j ∈ Finset.range n, if ¬ P j then (1 : ℝ) else 0) / n := by
      intro P _
      rw [eq_sub_iff_add_eq, ← add_div, ← Finset.sum_add_distrib]
      have h1 : ∀ j, ((if P j then (1 : ℝ) else 0) + if ¬ P j then (1 : ℝ) else 0) = 1 := fun j => by
        by_cases h : P j <;> simp [h]
      rw [Finset.sum_congr rfl fun j _ => h1 j]
      simp [hn0.ne']
    rw [hsum]
    rcases hA2 i (-y) with h | ⟨a, ha, hya, h⟩
    · rw [e1] at h
      have := cnt1 fun j => ¬ g i (T^[b + j] (x, s)).1 < y
      linarith
    · have e2 : (π.map fun z => -g i z).real (Set.Iio a) = π.real {z | -g i z < a} :=
        map_measureReal_apply (hgn i) measurableSet_Iio
      rw [e1, e2] at h
      have hc := (abs_lt.1 (hgood s hs (.inr ⟨i, a, ha⟩))).2
      rw [eind] at hc
      have hle := cnt (fun j => ¬ g i (T^[b + j] (x, s)).1 < y)
        (fun j => (T^[b + j] (x, s)).1 ∈ E (.inr ⟨i, a, ha⟩)) fun j hj => by
          change -g i _ < a
          have := not_lt.1 hj
          linarith
      have he : π.real (E (.inr ⟨i, a, ha⟩)) = π.real {z | -g i z < a} := rfl
      linarith

/-- empirical quantiles of functions of the rows cut off the right posterior probabilities -/
theorem Harris.quantiles (H : Harris μ T π) {S : Set X} (hS : MeasurableSet S)
    (hsp : ∀ x ∈ S, Spreads μ T π x)
    (keep : ∀ x ∈ S, ∀ᵐ s ∂μ, (T (x, s)).1 ∈ S) (hπS : π Sᶜ = 0) {x : X} (hx : x ∈ S) {η ε : ℝ}
    (hη : 0 < η) (hε : 0 < ε) {c : ℕ} {g : X → Fin c → ℝ} (hg : ∀ i, Measurable fun z => g z i) :
    ∃ K : ℕ, 2 ≤ K ∧ ∀ n b, K ≤ n → b ≤ n → ∃ B, MeasurableSet B ∧ μ.real B ≤ ε ∧ ∀ s, s ∉ B →
      ∀ ps : List ℝ, (∀ p ∈ ps, 0 ≤ p ∧ p ≤ 1) → ∃ qs,
        empiricalQuantiles (List.ofFn fun j : Fin n => g (T^[b + j] (x, s)).1) ps = .ok qs ∧ qs.length = ps.length ∧
        ∀ (a : ℕ) p q, ps[a]? = some p → qs[a]? = some q → ∀ i,
          p - η ≤ π.real {z | g z i ≤ q i} ∧ π.real {z | g z i < q i} ≤ p + η := by
  obtain ⟨K, hK0, hK⟩ := H.fractions hS hsp keep hπS hx (η := η / 2) (by positivity) hε hg
  obtain ⟨K2, hK2⟩ := exists_nat_gt (1 / (η / 2))
  refine ⟨K + K2 + 2, by omega, fun n b hn hb => ?_⟩
  obtain ⟨B, hB, hBε, hgood⟩ := hK n b (by omega) hb
  refine ⟨B, hB, hBε, fun s hs ps hps => ?_⟩
  have hlen : (List.ofFn fun j : Fin n => g (T^[b + (j : ℕ)] (x, s)).1).length = n := List.length_ofFn
  have hn0 : (0 : ℝ) < n := by exact_mod_cast (by omega : 0 < n)
  have hn1 : 1 / (n : ℝ) ≤ η / 2 := by
    rw [one_div_le hn0 (by positivity)]
    exact hK2.le.trans (by exact_mod_cast (by omega : K2 ≤ n))
  refine ⟨_, empiricalQuantiles_ok (by rw [hlen]; omega) hps, by simp, fun a p q hp hq i => ?_⟩
  rw [List.getElem?_map, hp] at hq
  cases hq
  have hpm := hps p (List.mem_of_getElem? hp)
  set l := (List.ofFn fun j : Fin n => g (T^[b + (j : ℕ)] (x, s)).1).map fun r => r i with hl
  have hll : l.length = n := by rw [hl, List.length_map, hlen]
  obtain ⟨c1, c2⟩ := quantile_counts (l := l) (by rw [hll]; omega) hpm.1 hpm.2
  rw [hlen]
  rw [hll] at c1 c2
  set q := interpAt (l.insertionSort (· ≤ ·)) (((n : ℝ) - 1) * p)
  have hlf : l = List.ofFn fun j : Fin n => g (T^[b + (j : ℕ)] (x, s)).1 i := by
    rw [hl, List.map_ofFn]; rfl
  rw [hlf, countP_ofFn] at c1 c2
  simp only [decide_eq_true_eq] at c1 c2
  rw [Fin.sum_univ_eq_sum_range (fun j => if g (T^[b + j] (x, s)).1 i ≤ q then (1 : ℝ) else 0) n] at c1
  rw [Fin.sum_univ_eq_sum_range (fun j => if g (T^[b + j] (x, s)).1 i < q then (1 : ℝ) else 0) n] at c2
  obtain ⟨f1, f2⟩ := hgood s hs i q
  rw [div_le_iff₀ hn0] at f1
  rw [le_div_iff₀ hn0] at f2
  have hn2 : 1 ≤ n * (η / 2) := by rwa [div_le_iff₀ hn0, mul_comm] at hn1
  constructor
  · by_contra hlt
    have := mul_lt_mul_of_pos_right (not_le.1 hlt) hn0
    nlinarith
  · by_contra hlt
    have := mul_lt_mul_of_pos_right (not_le.1 hlt) hn0
    nlinarith

end harris

end Verif
