import Verif.Lemmas.Means
import Verif.Spec.Stats
import Verif.Props.ChainStats
import Verif.Props.GelmanRubin

/-! # Statistics of a chain in terms of its averages

The mean, the standard deviation and the Gelman-Rubin factor are continuous functions of the averages of the
values and of their squares, so they follow the averages (`Harris.averages`). -/

set_option linter.unusedSectionVars false

namespace Verif
open MeasureTheory Function XR

section harris
variable {X σ : Type} [MeasurableSpace X] [MeasurableSpace σ] {μ : Measure σ} [IsProbabilityMeasure μ]
  {T : X × σ → X × σ} {π : Measure X}

/-- averages of finitely many functions with a finite mean, together -/
theorem Harris.averages (H : Harris μ T π) {S : Set X} (hS : MeasurableSet S)
    (hsp : ∀ x ∈ S, Spreads μ T π x)
    (keep : ∀ x ∈ S, ∀ᵐ s ∂μ, (T (x, s)).1 ∈ S) (hπS : π Sᶜ = 0) {x : X} (hx : x ∈ S) {η ε : ℝ}
    (hη : 0 < η) (hε : 0 < ε) {ι : Type} [Fintype ι] {f : ι → X → ℝ} (hf : ∀ i, Measurable (f i))
    (hi : ∀ i, Integrable (f i) π) :
    ∃ K : ℕ, ∀ k, K ≤ k →
      μ.real {s | ∃ i, η ≤ |(∑ j ∈ Finset.range k, f i (T^[j] (x, s)).1) / k - ∫ y, f i y ∂π|} ≤ ε := by
  have hc : (0 : ℝ) < Fintype.card ι + 1 := by positivity
  choose K hK using fun i => H.average_integrable hS hsp keep hπS hx hη (div_pos hε hc) (hf i) (hi i)
  refine ⟨∑ i, K i, fun k hk => ?_⟩
  have hset : {s | ∃ i, η ≤ |(∑ j ∈ Finset.range k, f i (T^[j] (x, s)).1) / k - ∫ y, f i y ∂π|} =
      ⋃ i, {s | η ≤ |(∑ j ∈ Finset.range k, f i (T^[j] (x, s)).1) / k - ∫ y, f i y ∂π|} := by
    ext s; simp
  rw [hset]
  calc _ ≤ ∑ i, μ.real {s | η ≤ |(∑ j ∈ Finset.range k, f i (T^[j] (x, s)).1) / k - ∫ y, f i y ∂π|} :=
        measureReal_iUnion_fintype_le _
    _ ≤ ∑ _i : ι, ε / (Fintype.card ι + 1) := Finset.sum_le_sum fun i _ =>
        hK i k ((Finset.single_le_sum (f := K) (fun _ _ => Nat.zero_le _) (Finset.mem_univ i)).trans hk)
    _ = Fintype.card ι * (ε / (Fintype.card ι + 1)) := by simp
    _ ≤ ε := by
        rw [mul_div_assoc', div_le_iff₀ hc]
        nlinarith

theorem measurableSet_averages (hT : Fresh μ T) (x : X) (k : ℕ) (η : ℝ) {ι : Type} [Countable ι] {f : ι → X → ℝ}
    (hf : ∀ i, Measurable (f i)) (c : ι → ℝ) :
    MeasurableSet {s | ∃ i, η ≤ |(∑ j ∈ Finset.range k, f i (T^[j] (x, s)).1) / k - c i|} := by
  have hset : {s | ∃ i, η ≤ |(∑ j ∈ Finset.range k, f i (T^[j] (x, s)).1) / k - c i|} =
      ⋃ i, {s | η ≤ |(∑ j ∈ Finset.range k, f i (T^[j] (x, s)).1) / k - c i|} := by
    ext s; simp
  rw [hset]
  refine MeasurableSet.iUnion fun i => ?_
  have h1 : Measurable fun s => ∑ j ∈ Finset.range k, f i (T^[j] (x, s)).1 :=
    Finset.measurable_sum _ fun j _ => (hf i).comp (hT.measurable_row j x)
  exact measurableSet_le measurable_const ((h1.div_const _).sub_const _).abs

theorem exists_common {ι : Type} [Fintype ι] {d : ι → ℝ} (h : ∀ i, 0 < d i) : ∃ δ, 0 < δ ∧ ∀ i, δ ≤ d i := by
  classical
  have : ∀ s : Finset ι, ∃ δ, 0 < δ ∧ ∀ i ∈ s, δ ≤ d i := by
    intro s
    induction s using Finset.induction with
    | empty => exact ⟨1, one_pos, by simp⟩
    | insert a s _ ih =>
      obtain ⟨δ, h0, h1⟩ := ih
      refine ⟨min δ (d a), lt_min h0 (h a), fun i hi => ?_⟩
      rcases Finset.mem_insert.1 hi with rfl | hi
      · exact min_le_right _ _
      · exact (min_le_left _ _).trans (h1 i hi)
  obtain ⟨δ, h0, h1⟩ := this Finset.univ
  exact ⟨δ, h0, fun i => h1 i (Finset.mem_univ i)⟩

theorem second_moment [IsProbabilityMeasure π] {g : X → ℝ} (hg : Measurable g)
    (hi : Integrable (fun y => g y ^ 2) π) :
    Integrable g π ∧ ∫ y, g y ^ 2 ∂π = ∫ y, (g y - ∫ z, g z ∂π) ^ 2 ∂π + (∫ z, g z ∂π) ^ 2 := by
  have h1 : Integrable g π := by
    refine ((integrable_const (1 : ℝ)).add hi).mono hg.aestronglyMeasurable (ae_of_all _ fun y => ?_)
    rw [Real.norm_eq_abs, Real.norm_eq_abs]
    have h2 : 0 ≤ (1 : ℝ) + g y ^ 2 := by positivity
    change |g y| ≤ |1 + g y ^ 2|
    rw [abs_of_nonneg h2]
    nlinarith [sq_abs (g y), sq_nonneg (|g y| - 1), abs_nonneg (g y)]
  refine ⟨h1, ?_⟩
  set m := ∫ z, g z ∂π with hm
  have e : ∀ y, (g y - m) ^ 2 = g y ^ 2 - 2 * m * g y + m ^ 2 := fun y => by ring
  have i1 : Integrable (fun y => 2 * m * g y) π := h1.const_mul _
  have i2 : Integrable (fun y => g y ^ 2 - 2 * m * g y) π := hi.sub i1
  simp only [e]
  rw [integral_add i2 (integrable_const _), integral_sub hi i1, integral_const_mul, ← hm]
  simp
  ring

theorem variance_pos [IsProbabilityMeasure π] {g : X → ℝ} (hg : Measurable g)
    (hi : Integrable (fun y => g y ^ 2) π) (hne : ∀ c, π {y | g y = c} = 0) :
    0 < ∫ y, (g y - ∫ z, g z ∂π) ^ 2 ∂π := by
  set m := ∫ z, g z ∂π
  have h1 := (second_moment hg hi).1
  have h2 : Integrable (fun y => (g y - m) ^ 2) π := by
    have e : (fun y => (g y - m) ^ 2) = fun y => g y ^ 2 - 2 * m * g y + m ^ 2 := funext fun y => by ring
    rw [e]
    exact (hi.sub (h1.const_mul _)).add (integrable_const _)
  refine lt_of_le_of_ne (integral_nonneg fun y => sq_nonneg _) fun h0 => ?_
  have h3 := (integral_eq_zero_iff_of_nonneg (fun y => sq_nonneg (g y - m)) h2).1 h0.symm
  have h4 : ∀ᵐ y ∂π, g y ≠ m := by
    rw [ae_iff]; simpa using hne m
  obtain ⟨y, hy1, hy2⟩ := (h3.and h4).exists
  exact hy2 (by have := pow_eq_zero_iff (two_ne_zero) |>.1 hy1; linarith)

/-- averages of values and squares of finitely many functions, outside a set of small probability -/
theorem Harris.moments (H : Harris μ T π) {S : Set X} (hS : MeasurableSet S)
    (hsp : ∀ x ∈ S, Spreads μ T π x)
    (keep : ∀ x ∈ S, ∀ᵐ s ∂μ, (T (x, s)).1 ∈ S) (hπS : π Sᶜ = 0) {x : X} (hx : x ∈ S) {η ε : ℝ}
    (hη : 0 < η) (hε : 0 < ε) {ι : Type} [Fintype ι] {g : ι → X → ℝ} (hg : ∀ i, Measurable (g i))
    (hi : ∀ i, Integrable (fun y => g i y ^ 2) π) :
    ∃ K : ℕ, ∀ k, K ≤ k → ∃ B, MeasurableSet B ∧ μ.real B ≤ ε ∧ ∀ s, s ∉ B → ∀ i,
      |(∑ j ∈ Finset.range k, g i (T^[j] (x, s)).1) / k - ∫ y, g i y ∂π| < η ∧
      |(∑ j ∈ Finset.range k, g i (T^[j] (x, s)).1 ^ 2) / k -
        (∫ y, (g i y - ∫ z, g i z ∂π) ^ 2 ∂π + (∫ z, g i z ∂π) ^ 2)| < η := by
  have := H.prob
  let f : ι × Bool → X → ℝ := fun a y => if a.2 then g a.1 y ^ 2 else g a.1 y
  have hf : ∀ a, Measurable (f a) := by
    rintro ⟨i, b⟩
    cases b
    · exact hg i
    · exact (hg i).pow_const 2
  have hfi : ∀ a, Integrable (f a) π := by
    rintro ⟨i, b⟩
    cases b
    · exact (second_moment (hg i) (hi i)).1
    · exact hi i
  obtain ⟨K, hK⟩ := H.averages hS hsp keep hπS hx hη hε hf hfi
  refine ⟨K, fun k hk => ⟨_, measurableSet_averages H.fresh x k η hf fun a => ∫ y, f a y ∂π, hK k hk,
    fun s hs i => ?_⟩⟩
  rw [Set.mem_ofPred_eq, not_exists] at hs
  refine ⟨not_le.1 (hs (i, false)), ?_⟩
  rw [← (second_moment (hg i) (hi i)).2]
  exact not_le.1 (hs (i, true))

end harris

/-! ### Statistics as functions of averages -/

theorem avg_range {k : ℕ} (t : ℕ → ℝ) : (avg fun j : Fin k => t j) = (∑ j ∈ Finset.range k, t j) / k := by
  unfold avg
  rw [Fin.sum_univ_eq_sum_range t k]

theorem avg_dev {k : ℕ} (hk : k ≠ 0) (t : Fin k → ℝ) :
    (∑ j, (t j - avg t) ^ 2) / k = (avg fun j => t j ^ 2) - avg t ^ 2 := by
  have hk' : (k : ℝ) ≠ 0 := by exact_mod_cast hk
  have h1 : ∑ j, t j = k * avg t := by unfold avg; field_simp
  have h2 : ∀ j, (t j - avg t) ^ 2 = t j ^ 2 - 2 * avg t * t j + avg t ^ 2 := fun j => by ring
  have h3 : (avg fun j => t j ^ 2) = (∑ j, t j ^ 2) / k := rfl
  simp only [h2]
  rw [Finset.sum_add_distrib, Finset.sum_sub_distrib, ← Finset.mul_sum, h1, h3]
  simp only [Finset.sum_const, Finset.card_univ, Fintype.card_fin, nsmul_eq_mul]
  field_simp
  ring

theorem svar_eq {k : ℕ} (hk : 2 ≤ k) (t : Fin k → ℝ) :
    svar t = ((avg fun j => t j ^ 2) - avg t ^ 2) * (1 - (k : ℝ)⁻¹)⁻¹ := by
  have hk' : (2 : ℝ) ≤ k := by exact_mod_cast hk
  have hk0 : (k : ℝ) ≠ 0 := by linarith
  have hk1 : (k : ℝ) - 1 ≠ 0 := by linarith
  rw [← avg_dev (by omega)]
  unfold svar
  have : (1 - (k : ℝ)⁻¹)⁻¹ = k / (k - 1) := by field_simp
  rw [this]
  field_simp

/-- mean and standard deviation in the table of statistics -/
theorem chainstats_moments {p : ℕ} (hann : ℕ → ℕ → XR) (cdf : XR → XR) (iact : List XR → Except PyErr (XR × ℕ))
    (hi : ∀ x, x ≠ [] → ∃ r, iact x = .ok r) {k : ℕ} (hk : 40 ≤ k) (t : ℕ → Fin p → ℝ) {chain : List (Vec XR p)}
    (hc : chain = List.ofFn fun j : Fin k => finVec (t j)) :
    ∃ S, chainstats (K := ℚ) hann cdf iact (some chain) = .ok (some S) ∧ ∀ i,
      S.mean i = fin ((∑ j ∈ Finset.range k, t j i) / k) ∧
      S.std i = fin (Real.sqrt ((∑ j ∈ Finset.range k, t j i ^ 2) / k - ((∑ j ∈ Finset.range k, t j i) / k) ^ 2)) := by
  obtain ⟨S, hS, -⟩ := C67_available_partial hann cdf iact hi chain (by rw [hc, List.length_ofFn]; exact hk)
  refine ⟨S, hS, fun i => ?_⟩
  have hcol : chain.map (fun r => r i) = List.ofFn fun j : Fin k => fin (t j i) := by
    rw [hc, List.map_ofFn]; rfl
  have hm : npMean (chain.map fun r => r i) = fin (avg fun j : Fin k => t j i) := by
    rw [hcol]; exact npMean_fin (by omega) _
  have hs : npMean ((chain.map fun r => r i).map fun a => (a - npMean (chain.map fun r => r i)) *
      (a - npMean (chain.map fun r => r i))) =
      fin ((avg fun j : Fin k => t j i ^ 2) - (avg fun j : Fin k => t j i) ^ 2) := by
    have h1 : (fun a : XR => (a - fin (avg fun j : Fin k => t j i)) * (a - fin (avg fun j : Fin k => t j i))) ∘
        (fun j : Fin k => fin (t j i)) = fun j : Fin k => fin ((t j i - avg fun j : Fin k => t j i) ^ 2) := by
      funext j; simp [pow_two]
    rw [hm, hcol, List.map_ofFn, ← avg_dev (by omega), h1, npMean_fin (by omega)]
    rfl
  have hnn : 0 ≤ (avg fun j : Fin k => t j i ^ 2) - (avg fun j : Fin k => t j i) ^ 2 := by
    rw [← avg_dev (by omega)]
    exact div_nonneg (Finset.sum_nonneg fun _ _ => sq_nonneg _) (Nat.cast_nonneg k)
  unfold chainstats at hS
  simp only at hS
  obtain ⟨bm, hbm, hS⟩ := bind_ok.1 hS
  obtain ⟨g, hg, hS⟩ := bind_ok.1 hS
  obtain ⟨l, hl, hS⟩ := bind_ok.1 hS
  cases hS
  dsimp only
  rw [hs, hm, avg_range fun j => t j i, avg_range fun j => t j i ^ 2]
  refine ⟨rfl, ?_⟩
  rw [avg_range fun j => t j i, avg_range fun j => t j i ^ 2] at hnn
  exact XR.sqrt_fin hnn

/-- the standard deviation follows the averages -/
theorem sqrt_near (m v : ℝ) {η : ℝ} (hη : 0 < η) :
    ∃ δ, 0 < δ ∧ ∀ a b, |a - m| < δ → |b - (v + m ^ 2)| < δ → |Real.sqrt (b - a ^ 2) - Real.sqrt v| < η := by
  have hc : Continuous fun z : ℝ × ℝ => Real.sqrt (z.2 - z.1 ^ 2) := by fun_prop
  obtain ⟨δ, hδ, h⟩ := Metric.continuous_iff.1 hc (m, v + m ^ 2) η hη
  refine ⟨δ, hδ, fun a b ha hb => ?_⟩
  have := h (a, b) (by
    rw [Prod.dist_eq, max_lt_iff]
    exact ⟨by rwa [Real.dist_eq], by rwa [Real.dist_eq]⟩)
  rw [Real.dist_eq] at this
  simpa using this

/-- the Gelman-Rubin quantities follow the averages -/
theorem psrf_near {M : ℕ} (hM : 2 ≤ M) (m : ℝ) {v : ℝ} (hv : 0 < v) {η : ℝ} (hη : 0 < η) :
    ∃ δ, 0 < δ ∧ ∃ K, 2 ≤ K ∧ ∀ k, K ≤ k → ∀ x : Fin k → Fin M → ℝ,
      (∀ c, |(avg fun j => x j c) - m| < δ ∧ |(avg fun j => x j c ^ 2) - (v + m ^ 2)| < δ) →
      ∃ r R W V, calculatePsrf (finChains x) k M = .ok r ∧ r.R = fin R ∧ r.W = fin W ∧ r.V = fin V ∧
        |R - 1| < η ∧ |W - v| < η ∧ |V - v| < η := by
  have hM2 : (2 : ℝ) ≤ M := by exact_mod_cast hM
  have hM0 : (M : ℝ) ≠ 0 := by linarith
  let w : ℝ × (Fin M → ℝ) × (Fin M → ℝ) → ℝ := fun z => avg fun c => (z.2.2 c - z.2.1 c ^ 2) * (1 - z.1)⁻¹
  let B : ℝ × (Fin M → ℝ) × (Fin M → ℝ) → ℝ := fun z => svar z.2.1
  let Q : ℝ × (Fin M → ℝ) × (Fin M → ℝ) → ℝ := fun z => (1 - z.1) + (M + 1) / M * (B z / w z)
  let z0 : ℝ × (Fin M → ℝ) × (Fin M → ℝ) := (0, fun _ => m, fun _ => v + m ^ 2)
  have avc : ∀ y : ℝ, (avg fun _ : Fin M => y) = y := fun y => by
    unfold avg; simp; field_simp
  have hw0 : w z0 = v := by
    change (avg fun _ => (v + m ^ 2 - m ^ 2) * (1 - (0 : ℝ))⁻¹) = v
    rw [avc]; simp
  have hB0 : B z0 = 0 := by
    change svar (fun _ : Fin M => m) = 0
    unfold svar; rw [avc]; simp
  have hQ0 : Q z0 = 1 := by
    change (1 - (0 : ℝ)) + (M + 1) / M * (B z0 / w z0) = 1
    rw [hB0]; simp
  have hwc : ContinuousAt w z0 := by
    have h1 : ContinuousAt (fun z : ℝ × (Fin M → ℝ) × (Fin M → ℝ) => (1 - z.1)⁻¹) z0 :=
      ContinuousAt.inv₀ (by fun_prop) (by simp [z0])
    have h2 : Continuous fun z : ℝ × (Fin M → ℝ) × (Fin M → ℝ) => avg fun c => z.2.2 c - z.2.1 c ^ 2 := by
      unfold avg; fun_prop
    have h3 : w = fun z => (avg fun c => z.2.2 c - z.2.1 c ^ 2) * (1 - z.1)⁻¹ := by
      funext z
      change (∑ c, (z.2.2 c - z.2.1 c ^ 2) * (1 - z.1)⁻¹) / M = (∑ c, (z.2.2 c - z.2.1 c ^ 2)) / M * (1 - z.1)⁻¹
      rw [← Finset.sum_mul]; ring
    rw [h3]
    exact h2.continuousAt.mul h1
  have hBc : ContinuousAt B z0 := by
    have : Continuous B := by
      change Continuous fun z : ℝ × (Fin M → ℝ) × (Fin M → ℝ) => svar z.2.1
      unfold svar avg; fun_prop
    exact this.continuousAt
  have hQc : ContinuousAt Q z0 :=
    (by fun_prop : Continuous fun z : ℝ × (Fin M → ℝ) × (Fin M → ℝ) => 1 - z.1).continuousAt.add
      (continuousAt_const.mul (hBc.div hwc (by rw [hw0]; exact hv.ne')))
  have hR := (Real.continuous_sqrt.continuousAt (x := Q z0)).comp hQc
  have hV := hQc.mul hwc
  obtain ⟨δ1, hδ1, h1⟩ := Metric.continuousAt_iff.1 hR η hη
  obtain ⟨δ2, hδ2, h2⟩ := Metric.continuousAt_iff.1 hwc (min η v) (lt_min hη hv)
  obtain ⟨δ3, hδ3, h3⟩ := Metric.continuousAt_iff.1 hV η hη
  obtain ⟨K, hK⟩ := exists_nat_gt (min δ1 (min δ2 δ3))⁻¹
  have hδ : 0 < min δ1 (min δ2 δ3) := lt_min hδ1 (lt_min hδ2 hδ3)
  refine ⟨_, hδ, K + 2, by omega, fun k hk x hx => ?_⟩
  have hk2 : (2 : ℝ) ≤ k := by exact_mod_cast (by omega : 2 ≤ k)
  have hkK : (K : ℝ) ≤ k := by exact_mod_cast (by omega : K ≤ k)
  set z : ℝ × (Fin M → ℝ) × (Fin M → ℝ) :=
    ((k : ℝ)⁻¹, fun c => avg fun j => x j c, fun c => avg fun j => x j c ^ 2) with hz
  have hd : dist z z0 < min δ1 (min δ2 δ3) := by
    rw [Prod.dist_eq, Prod.dist_eq, max_lt_iff, max_lt_iff, dist_pi_lt_iff hδ, dist_pi_lt_iff hδ]
    refine ⟨?_, fun c => ?_, fun c => ?_⟩
    · change dist (k : ℝ)⁻¹ 0 < _
      rw [Real.dist_eq, sub_zero, abs_of_pos (by positivity)]
      exact inv_lt_of_inv_lt₀ hδ (hK.trans_le hkK)
    · rw [Real.dist_eq]; exact (hx c).1
    · rw [Real.dist_eq]; exact (hx c).2
  have hwz : w z = within x := by
    change (avg fun c => ((avg fun j => x j c ^ 2) - (avg fun j => x j c) ^ 2) * (1 - (k : ℝ)⁻¹)⁻¹) =
      avg fun c => svar fun j => x j c
    congr 1
    funext c
    exact (svar_eq (by omega) _).symm
  have hBz : B z = between x := rfl
  have hQz : Q z = ((k : ℝ) - 1) / k + (M + 1) / M * (between x / within x) := by
    rw [← hwz, ← hBz]
    change (1 - (k : ℝ)⁻¹) + _ = _
    congr 1
    field_simp
  have e1 := h1 (hd.trans_le (min_le_left _ _))
  have e2 := h2 (hd.trans_le ((min_le_right _ _).trans (min_le_left _ _)))
  have e3 := h3 (hd.trans_le ((min_le_right _ _).trans (min_le_right _ _)))
  rw [Real.dist_eq] at e1 e2 e3
  simp only [Function.comp, Pi.mul_apply, hQ0, Real.sqrt_one, hw0, one_mul, hQz, hwz] at e1 e2 e3
  have hW : 0 < within x := by
    have := (abs_lt.1 (e2.trans_le (min_le_right _ _))).1
    linarith
  obtain ⟨r, hr, r1, -, r2, r3, -⟩ := C51_value (by omega) hM x hW
  exact ⟨r, _, _, _, hr, r1, r2, r3, e1, e2.trans_le (min_le_left _ _), e3⟩

/-- the diagnostic of equally long chains -/
theorem gelmanRubin_columns {M k p : ℕ} (hM : 2 ≤ M) (hk : 0 < k) (t : Fin M → Fin k → Fin p → ℝ)
    {chains : List (List (Vec XR p))} (hc : chains = List.ofFn fun c => List.ofFn fun j => finVec (t c j)) :
    ∃ rs, gelmanRubin chains = .ok rs ∧ rs.length = p ∧
      ∀ i : Fin p, ∃ r, rs[i.val]? = some r ∧ calculatePsrf (finChains fun j c => t c j i) k M = .ok r := by
  have hM0 : 0 < M := by omega
  have h0 : chains[0]? = some (List.ofFn fun j => finVec (t ⟨0, hM0⟩ j)) := by
    rw [hc, List.getElem?_ofFn, dif_pos hM0]
  have hlen : chains.length = M := by rw [hc, List.length_ofFn]
  have hpar : ((List.finRange p).mapM fun ii => chains.mapM fun c => chainColumn k c ii) =
      .ok ((List.finRange p).map fun i => finChains fun j c => t c j i) := by
    refine mapM_eq_ok fun i _ => ?_
    have h1 : chains.mapM (fun c => chainColumn k c i) = .ok (chains.map fun c => c.map fun r => r i) := by
      refine mapM_eq_ok fun c hcm => ?_
      rw [hc, List.mem_ofFn] at hcm
      obtain ⟨c', rfl⟩ := hcm
      unfold chainColumn
      rw [if_pos (by rw [List.length_ofFn])]
    rw [h1, hc, List.map_ofFn]
    unfold finChains
    congr 2
    funext c
    simp only [Function.comp, List.map_ofFn]
    rfl
  have hps : ∀ x : List (List XR), ∃ r, calculatePsrf x k M = .ok r := fun x => by
    unfold calculatePsrf
    rw [if_neg (by omega)]
    exact ⟨_, rfl⟩
  choose g hg using hps
  refine ⟨((List.finRange p).map fun i => finChains fun j c => t c j i).map g, ?_, by simp, fun i => ⟨_, ?_, hg _⟩⟩
  · unfold gelmanRubin pyGet
    rw [h0]
    simp only [ok_bind, List.length_ofFn]
    rw [if_neg (by omega), hlen, hpar, ok_bind]
    exact mapM_eq_ok fun x _ => hg x
  · simp

end Verif
