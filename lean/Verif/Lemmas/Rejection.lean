import Mathlib.Probability.ConditionalProbability
import Mathlib.MeasureTheory.Measure.Prod
import Mathlib.MeasureTheory.Constructions.BorelSpace.Order
import Mathlib.MeasureTheory.Integral.Lebesgue.Basic
import Mathlib.Analysis.SpecificLimits.Basic

/-! # Rejection: repeating a draw until it falls into a set

`T` draws a value and leaves the generator in a new state; repeated until the value is in `S`
it draws from the conditional law. -/

set_option linter.unusedSectionVars false

namespace Verif
open MeasureTheory ProbabilityTheory
open scoped ENNReal

variable {σ X : Type} [MeasurableSpace σ] [MeasurableSpace X]

/-- draw `n` (counted from 0) is the first in `S` -/
def hits (T : σ → X × σ) (S : Set X) : ℕ → σ → Prop
  | 0, s => (T s).1 ∈ S
  | n + 1, s => (T s).1 ∉ S ∧ hits T S n (T s).2

/-- draw `n` -/
def nth (T : σ → X × σ) : ℕ → σ → X × σ
  | 0, s => T s
  | n + 1, s => nth T n (T s).2

variable {T : σ → X × σ} {S : Set X}

theorem hits_unique : ∀ {n k : ℕ} {s : σ}, hits T S n s → hits T S k s → n = k
  | 0, 0, _, _, _ => rfl
  | 0, _ + 1, _, h, h' => absurd h h'.1
  | _ + 1, 0, _, h, h' => absurd h' h.1
  | n + 1, k + 1, _, h, h' => by rw [hits_unique h.2 h'.2]

theorem measurable_nth (hT : Measurable T) : ∀ n, Measurable (nth T n)
  | 0 => hT
  | n + 1 => (measurable_nth hT n).comp (measurable_snd.comp hT)

theorem measurableSet_hits (hT : Measurable T) (hS : MeasurableSet S) : ∀ n, MeasurableSet {s | hits T S n s}
  | 0 => (measurable_fst.comp hT) hS
  | n + 1 => ((measurable_fst.comp hT) hS).compl.inter ((measurable_snd.comp hT) (measurableSet_hits hT hS n))

open Classical in
/-- `f` of draw `n` if it is the first in `S`, else zero -/
noncomputable def part (T : σ → X × σ) (S : Set X) (f : X × σ → ℝ≥0∞) (n : ℕ) (s : σ) : ℝ≥0∞ :=
  if hits T S n s then f (nth T n s) else 0

theorem measurable_part (hT : Measurable T) (hS : MeasurableSet S) {f : X × σ → ℝ≥0∞} (hf : Measurable f)
    (n : ℕ) : Measurable (part T S f n) :=
  Measurable.ite (measurableSet_hits hT hS n) (hf.comp (measurable_nth hT n)) measurable_const

theorem tsum_part {f : X × σ → ℝ≥0∞} {n : ℕ} {s : σ} (h : hits T S n s) :
    ∑' k, part T S f k s = f (nth T n s) := by
  rw [tsum_eq_single n]
  · exact if_pos h
  · intro k hk
    exact if_neg fun h' => hk (hits_unique h' h)

theorem tsum_part_none {f : X × σ → ℝ≥0∞} {s : σ} (h : ∀ n, ¬ hits T S n s) : ∑' k, part T S f k s = 0 := by
  simp [part, h]

variable {μ : Measure σ} {ν : Measure X} [IsProbabilityMeasure μ] [IsProbabilityMeasure ν]

theorem lintegral_part (hT : MeasurePreserving T μ (ν.prod μ)) (hS : MeasurableSet S) {f : X × σ → ℝ≥0∞}
    (hf : Measurable f) : ∀ n, ∫⁻ s, part T S f n s ∂μ = ν Sᶜ ^ n * ∫⁻ x in S, ∫⁻ s, f (x, s) ∂μ ∂ν
  | 0 => by
    classical
    have h1 : ∀ s, part T S f 0 s = (fun p : X × σ => if p.1 ∈ S then f p else 0) (T s) := fun s => rfl
    have hm : Measurable fun p : X × σ => if p.1 ∈ S then f p else 0 :=
      Measurable.ite (measurable_fst hS) hf measurable_const
    simp only [h1]
    rw [hT.lintegral_comp hm, lintegral_prod _ hm.aemeasurable, pow_zero, one_mul, ← lintegral_indicator hS]
    congr 1
    funext x
    by_cases hx : x ∈ S <;> simp [hx]
  | n + 1 => by
    classical
    have h1 : ∀ s, part T S f (n + 1) s =
        (fun p : X × σ => if p.1 ∈ S then 0 else part T S f n p.2) (T s) := by
      intro s
      unfold part
      simp only [hits, nth]
      by_cases hx : (T s).1 ∈ S <;> simp [hx]
    have hp := measurable_part hT.measurable hS hf n
    have hm : Measurable fun p : X × σ => if p.1 ∈ S then 0 else part T S f n p.2 :=
      Measurable.ite (measurable_fst hS) measurable_const (hp.comp measurable_snd)
    simp only [h1]
    rw [hT.lintegral_comp hm, lintegral_prod _ hm.aemeasurable]
    have h2 : ∀ x, (∫⁻ s, (if x ∈ S then 0 else part T S f n s) ∂μ) =
        Sᶜ.indicator (fun _ => ∫⁻ s, part T S f n s ∂μ) x := by
      intro x
      by_cases hx : x ∈ S <;> simp [hx]
    simp only [h2]
    rw [lintegral_indicator hS.compl, setLIntegral_const, lintegral_part hT hS hf n, pow_succ]
    ring

theorem sum_part (hT : MeasurePreserving T μ (ν.prod μ)) (hS : MeasurableSet S) {f : X × σ → ℝ≥0∞}
    (hf : Measurable f) :
    ∫⁻ s, ∑' n, part T S f n s ∂μ = (ν S)⁻¹ * ∫⁻ x in S, ∫⁻ s, f (x, s) ∂μ ∂ν := by
  rw [lintegral_tsum fun n => (measurable_part hT.measurable hS hf n).aemeasurable]
  simp only [lintegral_part hT hS hf]
  rw [ENNReal.tsum_mul_right, ENNReal.tsum_geometric, prob_compl_eq_one_sub hS,
    ENNReal.sub_sub_cancel ENNReal.one_ne_top prob_le_one]

theorem ae_hits (hT : MeasurePreserving T μ (ν.prod μ)) (hS : MeasurableSet S) (h0 : ν S ≠ 0) :
    ∀ᵐ s ∂μ, ∃ n, hits T S n s := by
  classical
  have h := sum_part hT hS (f := fun _ => 1) measurable_const
  simp only [lintegral_const, measure_univ, mul_one, Measure.restrict_apply_univ, one_mul] at h
  rw [ENNReal.inv_mul_cancel h0 (measure_ne_top ν S)] at h
  have hm : MeasurableSet {s | ∃ n, hits T S n s} := by
    rw [show {s | ∃ n, hits T S n s} = ⋃ n, {s | hits T S n s} by ext; simp]
    exact MeasurableSet.iUnion fun n => measurableSet_hits hT.measurable hS n
  have e : (fun s => ∑' n, part T S (fun _ => 1) n s) = {s | ∃ n, hits T S n s}.indicator 1 := by
    funext s
    by_cases hs : ∃ n, hits T S n s
    · obtain ⟨n, hn⟩ := hs
      rw [tsum_part hn, Set.indicator_of_mem (by exact ⟨n, hn⟩)]
      rfl
    · rw [tsum_part_none (fun n hn => hs ⟨n, hn⟩), Set.indicator_of_notMem (by exact hs)]
  rw [e, lintegral_indicator_one hm] at h
  exact (prob_compl_eq_zero_iff hm).2 h

/-- Repeating until the value is in `S` ends almost surely and draws from the conditional law; the state
in which the generator is left is independent of the value. -/
theorem exists_retry (hT : MeasurePreserving T μ (ν.prod μ)) (hS : MeasurableSet S) (h0 : ν S ≠ 0) :
    ∃ R : σ → X × σ, MeasurePreserving R μ ((ν[|S]).prod μ) ∧
      ∀ᵐ s ∂μ, ∃ n, hits T S n s ∧ R s = nth T n s := by
  classical
  have hex : ∀ s, ∃ n, hits T S n s ∨ ∀ k, ¬ hits T S k s := by
    intro s
    by_cases h : ∃ n, hits T S n s
    · obtain ⟨n, hn⟩ := h; exact ⟨n, .inl hn⟩
    · exact ⟨0, .inr fun k hk => h ⟨k, hk⟩⟩
  have hmR : Measurable fun s => nth T (Nat.find (hex s)) s := by
    refine Measurable.find (f := fun n s => nth T n s) (fun n => measurable_nth hT.measurable n) (fun n => ?_) hex
    refine (measurableSet_hits hT.measurable hS n).union ?_
    change MeasurableSet {s | ∀ k, ¬ hits T S k s}
    rw [show {s | ∀ k, ¬ hits T S k s} = ⋂ k, {s | hits T S k s}ᶜ by ext; simp]
    exact MeasurableSet.iInter fun k => (measurableSet_hits hT.measurable hS k).compl
  have hfind : ∀ s n, hits T S n s → Nat.find (hex s) = n := by
    intro s n hn
    rcases Nat.find_spec (hex s) with h | h
    · exact hits_unique h hn
    · exact absurd hn (h n)
  have hae := ae_hits hT hS h0
  refine ⟨fun s => nth T (Nat.find (hex s)) s, ⟨hmR, ?_⟩, ?_⟩
  · refine Measure.ext_of_lintegral _ fun f hf => ?_
    rw [lintegral_map hf hmR, lintegral_prod _ hf.aemeasurable, ProbabilityTheory.cond, lintegral_smul_measure,
      smul_eq_mul, ← sum_part hT hS hf]
    refine lintegral_congr_ae ?_
    filter_upwards [hae] with s hs
    obtain ⟨n, hn⟩ := hs
    rw [tsum_part hn, hfind s n hn]
  · filter_upwards [hae] with s hs
    obtain ⟨n, hn⟩ := hs
    exact ⟨n, hn, by rw [hfind s n hn]⟩

end Verif
