import Verif.Spec.IdealRng
import Mathlib.Probability.ProductMeasure

/-! # An ideal generator

A generator in the sense of `IdealRng` exists: its state is a sequence of normal vectors and a sequence of
uniform numbers. -/

namespace Verif
open MeasureTheory Measure

/-- the sequence that begins with `p.1` and goes on with `p.2` -/
def seqCons {X : Type} (p : X × (ℕ → X)) : ℕ → X
  | 0 => p.1
  | i + 1 => p.2 i

theorem measurable_seqCons {X : Type} [MeasurableSpace X] : Measurable (seqCons (X := X)) :=
  measurable_pi_iff.2 fun i => by
    cases i with
    | zero => exact measurable_fst
    | succ i => exact (measurable_pi_apply i).comp measurable_snd

theorem map_seqCons {X : Type} [MeasurableSpace X] (ν : Measure X) [IsProbabilityMeasure ν] :
    Measure.map seqCons (ν.prod (infinitePi fun _ : ℕ => ν)) = infinitePi fun _ => ν := by
  classical
  apply eq_infinitePi
  intro s t ht
  rw [Measure.map_apply measurable_seqCons (MeasurableSet.pi s.countable_toSet fun i _ => ht i)]
  have hpre : (seqCons ⁻¹' Set.pi s t : Set (X × (ℕ → X))) =
      (if 0 ∈ s then t 0 else Set.univ) ×ˢ
        Set.pi ((s.filter (0 < ·)).image Nat.pred : Finset ℕ) fun i => t (i + 1) := by
    ext ⟨a, f⟩
    simp only [Set.mem_preimage, Set.mem_pi, Finset.mem_coe, Set.mem_prod, Finset.mem_image, Finset.mem_filter]
    constructor
    · intro h
      refine ⟨?_, ?_⟩
      · split
        · exact h 0 ‹_›
        · trivial
      · rintro i ⟨k, ⟨hk, hk0⟩, rfl⟩
        obtain ⟨k, rfl⟩ := Nat.exists_eq_succ_of_ne_zero hk0.ne'
        exact h _ hk
    · rintro ⟨h1, h2⟩ i hi
      cases i with
      | zero => rwa [if_pos hi] at h1
      | succ i => exact h2 i ⟨i + 1, ⟨hi, Nat.succ_pos _⟩, rfl⟩
  rw [hpre, Measure.prod_prod, infinitePi_pi _ fun i _ => ht _]
  rw [Finset.prod_image (by
    intro a ha b hb hab
    simp only [Finset.coe_filter, Set.mem_setOf_eq] at ha hb
    have : a - 1 = b - 1 := hab
    omega)]
  have hp : ∏ i ∈ s.filter (0 < ·), ν (t (Nat.pred i + 1)) = ∏ i ∈ s.filter (0 < ·), ν (t i) :=
    Finset.prod_congr rfl fun i hi => by
      rw [Finset.mem_filter] at hi
      congr 2
      have := hi.2
      change i - 1 + 1 = i
      omega
  rw [hp, ← Finset.prod_filter_mul_prod_filter_not s (0 < ·), mul_comm]
  congr 1
  split
  · rename_i h
    have : s.filter (fun i => ¬ 0 < i) = {0} := by
      ext i; simp only [Finset.mem_filter, Finset.mem_singleton]
      constructor
      · intro h; omega
      · rintro rfl; exact ⟨h, by omega⟩
    rw [this, Finset.prod_singleton]
  · rename_i h
    have : s.filter (fun i => ¬ 0 < i) = ∅ := by
      ext i; simp only [Finset.mem_filter, Finset.notMem_empty, iff_false]
      rintro ⟨h1, h2⟩
      obtain rfl : i = 0 := by omega
      exact h h1
    rw [this, Finset.prod_empty, measure_univ]

/-- taking the first entry off a sequence of independent draws -/
theorem measurePreserving_uncons {X : Type} [MeasurableSpace X] (ν : Measure X) [IsProbabilityMeasure ν] :
    MeasurePreserving (fun f : ℕ → X => (f 0, fun i => f (i + 1))) (infinitePi fun _ => ν)
      (ν.prod (infinitePi fun _ => ν)) := by
  have hm : Measurable fun f : ℕ → X => (f 0, fun i => f (i + 1)) :=
    (measurable_pi_apply 0).prodMk (measurable_pi_iff.2 fun i => measurable_pi_apply _)
  refine ⟨hm, ?_⟩
  conv_lhs => rw [← map_seqCons ν]
  rw [Measure.map_map hm measurable_seqCons]
  exact Measure.map_id

instance : IsProbabilityMeasure uniformLaw := ⟨by simp [uniformLaw]⟩
instance (n : ℕ) : IsProbabilityMeasure (normalLaw n) := by unfold normalLaw; infer_instance

/-- state of the generator: the normal vectors and the uniform numbers to come -/
abbrev CoinState (n : ℕ) : Type := (ℕ → Fin n → ℝ) × (ℕ → ℝ)

/-- law of the state: all independent -/
noncomputable def coinLaw (n : ℕ) : Measure (CoinState n) :=
  (infinitePi fun _ => normalLaw n).prod (infinitePi fun _ => uniformLaw)

instance (n : ℕ) : IsProbabilityMeasure (coinLaw n) := by unfold coinLaw; infer_instance

/-- `a` if it is in `[0, 1)`, else 0 -/
noncomputable def clip (a : ℝ) : ℝ := by classical exact if 0 ≤ a ∧ a < 1 then a else 0

theorem measurePreserving_clip : MeasurePreserving clip uniformLaw uniformLaw := by
  have hm : Measurable clip := by
    unfold clip
    exact Measurable.ite (measurableSet_Ico (a := (0 : ℝ)) (b := 1)) measurable_id measurable_const
  refine ⟨hm, ?_⟩
  have h : clip =ᵐ[uniformLaw] id := by
    unfold uniformLaw
    filter_upwards [ae_restrict_mem measurableSet_Ico] with a ha
    exact if_pos ha
  rw [Measure.map_congr h, Measure.map_id]

/-- The generator: `randn` for `n` numbers takes the next normal vector, `rand` the next uniform number. -/
noncomputable def coinRng (n : ℕ) : Rng (CoinState n) XR where
  randn k s := (fun i => .fin (if h : k = n then s.1 0 (i.cast h) else 0), (fun i => s.1 (i + 1), s.2))
  rand s := (.fin (clip (s.2 0)), (s.1, fun i => s.2 (i + 1)))

/-- the generator is ideal -/
noncomputable def coinIdeal (n : ℕ) : IdealRng (coinRng n) n (coinLaw n) where
  z s := s.1 0
  afterZ s := (fun i => s.1 (i + 1), s.2)
  u s := clip (s.2 0)
  afterU s := (s.1, fun i => s.2 (i + 1))
  randn s := by simp [coinRng]
  rand s := rfl
  range s := by
    unfold clip
    split
    · assumption
    · simp
  lawZ := by
    have h1 := (measurePreserving_uncons (normalLaw n)).prod
      (MeasurePreserving.id (infinitePi fun _ : ℕ => uniformLaw))
    exact (measurePreserving_prodAssoc (normalLaw n) (infinitePi fun _ : ℕ => normalLaw n)
      (infinitePi fun _ : ℕ => uniformLaw)).comp h1
  lawU := by
    have h1 := (MeasurePreserving.id (infinitePi fun _ : ℕ => normalLaw n)).prod
      ((measurePreserving_clip.prod (MeasurePreserving.id (infinitePi fun _ : ℕ => uniformLaw))).comp
        (measurePreserving_uncons uniformLaw))
    have h2 := (measurePreserving_prodAssoc (infinitePi fun _ : ℕ => normalLaw n) uniformLaw
      (infinitePi fun _ : ℕ => uniformLaw)).symm
    have h3 := (measurePreserving_swap (μ := infinitePi fun _ : ℕ => normalLaw n) (ν := uniformLaw)).prod
      (MeasurePreserving.id (infinitePi fun _ : ℕ => uniformLaw))
    have h4 := measurePreserving_prodAssoc uniformLaw (infinitePi fun _ : ℕ => normalLaw n)
      (infinitePi fun _ : ℕ => uniformLaw)
    exact h4.comp (h3.comp (h2.comp h1))

end Verif
