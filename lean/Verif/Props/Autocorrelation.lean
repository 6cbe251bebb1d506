import Verif.Model.ChainStats
import Mathlib.Analysis.SpecialFunctions.Complex.Log
import Mathlib.Algebra.BigOperators.Field
import Mathlib.Tactic.Ring
import Mathlib.Tactic.NormNum
import Mathlib.Tactic.Linarith
import Mathlib.Tactic.FieldSimp
import Mathlib.Tactic.Positivity
import Mathlib.Tactic.GCongr
import Mathlib.Tactic.FinCases
import Mathlib.Tactic.IntervalCases
import Mathlib.Tactic.LinearCombination

/-! # C52: integrated autocorrelation time -/

namespace Verif
set_option linter.unusedSectionVars false

open Finset

/-! ### Vocabulary -/

/-- value `t` of a column minus the mean of the column -/
noncomputable def centred (x : List ℝ) (t : ℕ) : ℝ := x.getD t 0 - x.sum / x.length

/-- circular autocovariance at lag `i` (times the number of rows) -/
noncomputable def acov (x : List ℝ) (i : ℕ) : ℝ :=
  ∑ t ∈ range x.length, centred x t * centred x ((t + i) % x.length)

/-- circular autocorrelation at lag `i` -/
noncomputable def acorr (x : List ℝ) (i : ℕ) : ℝ := acov x i / acov x 0

/-- one plus twice the sum of the autocorrelations at the lags `1 … w` -/
noncomputable def sokalTime (x : List ℝ) (w : ℕ) : ℝ := 1 + 2 * ∑ j ∈ range w, acorr x (j + 1)

/-! ### Orthogonality of the cosines -/

theorem trig_sum {N : ℕ} (hN : 0 < N) (m : ℤ) :
    (∑ k ∈ range N, Real.cos (2 * Real.pi * k * m / N) = if (N : ℤ) ∣ m then (N : ℝ) else 0) ∧
    ∑ k ∈ range N, Real.sin (2 * Real.pi * k * m / N) = 0 := by
  have hN0 : (N : ℝ) ≠ 0 := by exact_mod_cast hN.ne'
  have hNc : (N : ℂ) ≠ 0 := by exact_mod_cast hN.ne'
  by_cases hd : (N : ℤ) ∣ m
  · obtain ⟨q, rfl⟩ := hd
    have e : ∀ k : ℕ, 2 * Real.pi * k * ((N * q : ℤ) : ℝ) / N = ((k * q : ℤ) : ℝ) * (2 * Real.pi) := by
      intro k
      push_cast
      field_simp
    have e2 : ∀ k : ℕ, 2 * Real.pi * k * ((N * q : ℤ) : ℝ) / N = ((2 * (k * q) : ℤ) : ℝ) * Real.pi := by
      intro k
      push_cast
      field_simp
    constructor
    · rw [if_pos (Dvd.intro _ rfl)]
      simp only [e, Real.cos_int_mul_two_pi]
      simp
    · simp only [e2, Real.sin_int_mul_pi]
      simp
  · let z : ℂ := Complex.exp ((2 * Real.pi * m / N : ℝ) * Complex.I)
    have hz1 : z ≠ 1 := by
      intro h
      obtain ⟨n, hn⟩ := Complex.exp_eq_one_iff.1 h
      apply hd
      refine ⟨n, ?_⟩
      have hI := Complex.I_ne_zero
      have hp : (Real.pi : ℂ) ≠ 0 := by exact_mod_cast Real.pi_ne_zero
      push_cast at hn
      field_simp at hn
      have : (m : ℂ) = ((N * n : ℤ) : ℂ) := by push_cast; linear_combination hn
      exact_mod_cast this
    have hzN : z ^ N = 1 := by
      rw [← Complex.exp_nat_mul, Complex.exp_eq_one_iff]
      refine ⟨m, ?_⟩
      push_cast
      field_simp
    have hsum : ∑ k ∈ range N, z ^ k = 0 := by
      have := mul_neg_geom_sum z N
      rw [hzN, sub_self] at this
      rcases mul_eq_zero.1 this with h | h
      · exact absurd (sub_eq_zero.1 h).symm hz1
      · exact h
    have hpow : ∀ k : ℕ, z ^ k = Complex.exp ((2 * Real.pi * k * m / N : ℝ) * Complex.I) := by
      intro k
      rw [← Complex.exp_nat_mul]
      congr 1
      push_cast
      ring
    simp only [hpow] at hsum
    constructor
    · rw [if_neg hd]
      have := congrArg Complex.re hsum
      rw [Complex.re_sum] at this
      simpa only [Complex.exp_ofReal_mul_I_re, Complex.zero_re] using this
    · have := congrArg Complex.im hsum
      rw [Complex.im_sum] at this
      simpa only [Complex.exp_ofReal_mul_I_im, Complex.zero_im] using this

theorem sum_centred (x : List ℝ) (hN : 0 < x.length) : ∑ t ∈ range x.length, centred x t = 0 := by
  have hN0 : (x.length : ℝ) ≠ 0 := by exact_mod_cast hN.ne'
  have h1 : ∑ t ∈ range x.length, x.getD t 0 = x.sum := by
    rw [Finset.sum_range]
    rw [← List.sum_ofFn]
    congr 1
    apply List.ext_getElem
    · simp
    · intro i h1 h2
      simp at h1
      simp [h1]
  unfold centred
  rw [Finset.sum_sub_distrib, h1]
  simp
  field_simp
  ring

/-- the periodogram in terms of the centred column -/
theorem periodogram_eq (x : List ℝ) {k : ℕ} (hk : k < x.length) :
    periodogram x k = ∑ t ∈ range x.length, ∑ s ∈ range x.length,
      centred x t * centred x s * Real.cos (2 * Real.pi * k * ((t : ℤ) - (s : ℤ) : ℤ) / x.length) := by
  have hN : 0 < x.length := by omega
  unfold periodogram
  by_cases hk0 : k = 0
  · rw [if_pos hk0, hk0]
    have : ∀ t s : ℕ, centred x t * centred x s *
        Real.cos (2 * Real.pi * (0 : ℕ) * ((t : ℤ) - (s : ℤ) : ℤ) / x.length) =
        centred x t * centred x s := by
      intro t s; simp
    simp only [this]
    rw [← Finset.sum_mul_sum, sum_centred x hN, zero_mul]
  · rw [if_neg hk0]
    have hnd : ¬ ((x.length : ℤ) ∣ (k : ℤ)) := by
      intro h
      have := Nat.le_of_dvd (by omega) (Int.natCast_dvd_natCast.1 h)
      omega
    obtain ⟨c0, s0⟩ := trig_sum hN (k : ℤ)
    rw [if_neg hnd] at c0
    have ec : ∑ t ∈ range x.length, x.getD t 0 * Real.cos (2 * Real.pi * k * t / x.length) =
        ∑ t ∈ range x.length, centred x t * Real.cos (2 * Real.pi * k * t / x.length) := by
      have : ∀ t : ℕ, centred x t * Real.cos (2 * Real.pi * k * t / x.length) =
          x.getD t 0 * Real.cos (2 * Real.pi * k * t / x.length) -
          x.sum / x.length * Real.cos (2 * Real.pi * t * (k : ℤ) / x.length) := by
        intro t
        have : 2 * Real.pi * (t : ℝ) * ((k : ℤ) : ℝ) / x.length = 2 * Real.pi * k * t / x.length := by
          push_cast; ring
        rw [this]
        unfold centred
        ring
      simp only [this]
      rw [Finset.sum_sub_distrib, ← Finset.mul_sum, c0, mul_zero, sub_zero]
    have es : ∑ t ∈ range x.length, x.getD t 0 * Real.sin (2 * Real.pi * k * t / x.length) =
        ∑ t ∈ range x.length, centred x t * Real.sin (2 * Real.pi * k * t / x.length) := by
      have : ∀ t : ℕ, centred x t * Real.sin (2 * Real.pi * k * t / x.length) =
          x.getD t 0 * Real.sin (2 * Real.pi * k * t / x.length) -
          x.sum / x.length * Real.sin (2 * Real.pi * t * (k : ℤ) / x.length) := by
        intro t
        have : 2 * Real.pi * (t : ℝ) * ((k : ℤ) : ℝ) / x.length = 2 * Real.pi * k * t / x.length := by
          push_cast; ring
        rw [this]
        unfold centred
        ring
      simp only [this]
      rw [Finset.sum_sub_distrib, ← Finset.mul_sum, s0, mul_zero, sub_zero]
    rw [ec, es, neg_sq, pow_two, pow_two, Finset.sum_mul_sum, Finset.sum_mul_sum,
      ← Finset.sum_add_distrib]
    apply Finset.sum_congr rfl
    intro t _
    rw [← Finset.sum_add_distrib]
    apply Finset.sum_congr rfl
    intro s _
    have : 2 * Real.pi * (k : ℝ) * (((t : ℤ) - (s : ℤ) : ℤ) : ℝ) / x.length =
        2 * Real.pi * k * t / x.length - 2 * Real.pi * k * s / x.length := by
      push_cast; ring
    rw [this, Real.cos_sub]
    ring

/-- for every row there is exactly one row at circular distance `i` -/
theorem sum_circular {N : ℕ} (hN : 0 < N) (f : ℕ → ℝ) (t i : ℕ) :
    ∑ s ∈ range N, f s * (if (N : ℤ) ∣ (t : ℤ) - s + i then (N : ℝ) else 0) =
      N * f ((t + i) % N) := by
  have hmem : (t + i) % N ∈ range N := Finset.mem_range.2 (Nat.mod_lt _ hN)
  rw [Finset.sum_eq_single_of_mem _ hmem]
  · rw [if_pos, mul_comm]
    have h1 := Nat.div_add_mod (t + i) N
    refine ⟨((t + i) / N : ℕ), ?_⟩
    have : ((t + i : ℕ) : ℤ) = (N : ℤ) * ((t + i) / N : ℕ) + ((t + i) % N : ℕ) := by
      exact_mod_cast h1.symm
    push_cast at this ⊢
    linarith
  · intro s hs hne
    rw [if_neg, mul_zero]
    rintro ⟨q, hq⟩
    apply hne
    have hs' : s < N := Finset.mem_range.1 hs
    have e : ((t + i : ℕ) : ℤ) = s + N * q := by push_cast; linarith
    have e2 : ((t + i : ℕ) : ℤ) % N = s := by
      rw [e, Int.add_mul_emod_self_left]
      exact Int.emod_eq_of_lt (by omega) (by omega)
    have e3 : (((t + i) % N : ℕ) : ℤ) = s := by
      rw [Int.natCast_mod]; exact e2
    exact_mod_cast e3.symm

/-- the transform of the periodogram is the circular autocovariance -/
theorem periodogramTransform_eq (x : List ℝ) (hN : 0 < x.length) (i : ℕ) :
    periodogramTransform x i = x.length * acov x i := by
  have hN0 : (x.length : ℝ) ≠ 0 := by exact_mod_cast hN.ne'
  unfold periodogramTransform
  have step1 : ∀ k ∈ range x.length, periodogram x k * Real.cos (2 * Real.pi * i * k / x.length) =
      ∑ t ∈ range x.length, ∑ s ∈ range x.length, centred x t * centred x s * (1 / 2 *
        (Real.cos (2 * Real.pi * k * ((t : ℤ) - s + i : ℤ) / x.length) +
         Real.cos (2 * Real.pi * k * ((s : ℤ) - t + i : ℤ) / x.length))) := by
    intro k hk
    rw [periodogram_eq x (Finset.mem_range.1 hk), Finset.sum_mul]
    apply Finset.sum_congr rfl
    intro t _
    rw [Finset.sum_mul]
    apply Finset.sum_congr rfl
    intro s _
    have e1 : 2 * Real.pi * (k : ℝ) * (((t : ℤ) - s + i : ℤ) : ℝ) / x.length =
        2 * Real.pi * k * (((t : ℤ) - s : ℤ) : ℝ) / x.length + 2 * Real.pi * i * k / x.length := by
      push_cast; ring
    have e2 : 2 * Real.pi * (k : ℝ) * (((s : ℤ) - t + i : ℤ) : ℝ) / x.length =
        -(2 * Real.pi * k * (((t : ℤ) - s : ℤ) : ℝ) / x.length - 2 * Real.pi * i * k / x.length) := by
      push_cast; ring
    rw [e1, e2, Real.cos_neg, Real.cos_add, Real.cos_sub]
    ring
  rw [Finset.sum_congr rfl step1, Finset.sum_comm]
  have step2 : ∀ t ∈ range x.length, ∑ k ∈ range x.length, ∑ s ∈ range x.length,
      centred x t * centred x s * (1 / 2 *
        (Real.cos (2 * Real.pi * k * ((t : ℤ) - s + i : ℤ) / x.length) +
         Real.cos (2 * Real.pi * k * ((s : ℤ) - t + i : ℤ) / x.length))) =
      ∑ s ∈ range x.length, (1 / 2 * (centred x t * (centred x s *
        (if (x.length : ℤ) ∣ (t : ℤ) - s + i then (x.length : ℝ) else 0))) +
       1 / 2 * (centred x s * (centred x t *
        (if (x.length : ℤ) ∣ (s : ℤ) - t + i then (x.length : ℝ) else 0)))) := by
    intro t _
    rw [Finset.sum_comm]
    apply Finset.sum_congr rfl
    intro s _
    rw [← Finset.mul_sum, ← Finset.mul_sum, Finset.sum_add_distrib, (trig_sum hN _).1, (trig_sum hN _).1]
    ring
  rw [Finset.sum_congr rfl step2]
  simp only [Finset.sum_add_distrib]
  have a1 : ∑ t ∈ range x.length, ∑ s ∈ range x.length, 1 / 2 * (centred x t * (centred x s *
        (if (x.length : ℤ) ∣ (t : ℤ) - s + i then (x.length : ℝ) else 0))) =
      1 / 2 * (x.length * acov x i) := by
    unfold acov
    rw [Finset.mul_sum, Finset.mul_sum]
    apply Finset.sum_congr rfl
    intro t _
    rw [← Finset.mul_sum, ← Finset.mul_sum, sum_circular hN]
    ring
  have a2 : ∑ t ∈ range x.length, ∑ s ∈ range x.length, 1 / 2 * (centred x s * (centred x t *
        (if (x.length : ℤ) ∣ (s : ℤ) - t + i then (x.length : ℝ) else 0))) =
      1 / 2 * (x.length * acov x i) := by
    rw [Finset.sum_comm]
    exact a1
  rw [a1, a2]
  ring

theorem acov_zero (x : List ℝ) : acov x 0 = ∑ t ∈ range x.length, centred x t ^ 2 := by
  unfold acov
  apply Finset.sum_congr rfl
  intro t ht
  rw [add_zero, Nat.mod_eq_of_lt (Finset.mem_range.1 ht), pow_two]

/-- the autocovariance at lag zero vanishes exactly for a constant column -/
theorem acov_zero_iff (x : List ℝ) (hN : 0 < x.length) :
    acov x 0 = 0 ↔ ∃ c, ∀ a ∈ x, a = c := by
  have hN0 : (x.length : ℝ) ≠ 0 := by exact_mod_cast hN.ne'
  rw [acov_zero, Finset.sum_eq_zero_iff_of_nonneg fun _ _ => sq_nonneg _]
  constructor
  · intro h
    refine ⟨x.sum / x.length, fun a ha => ?_⟩
    obtain ⟨t, ht, rfl⟩ := List.mem_iff_getElem.1 ha
    have := pow_eq_zero_iff (two_ne_zero) |>.1 (h t (Finset.mem_range.2 ht))
    unfold centred at this
    rw [List.getD_eq_getElem?_getD, List.getElem?_eq_getElem ht] at this
    simpa using sub_eq_zero.1 this
  · rintro ⟨c, hc⟩ t ht
    have ht' := Finset.mem_range.1 ht
    have hx : x = List.replicate x.length c := List.eq_replicate_iff.2 ⟨rfl, hc⟩
    have hs : x.sum = x.length * c := by
      conv_lhs => rw [hx]
      simp
    unfold centred
    rw [List.getD_eq_getElem?_getD, List.getElem?_eq_getElem ht', Option.getD_some,
      hc _ (List.getElem_mem ht'), hs, mul_div_cancel_left₀ _ hN0, sub_self]
    ring

/-- all autocovariances together cancel -/
theorem sum_acov (x : List ℝ) (hN : 0 < x.length) : ∑ i ∈ range x.length, acov x i = 0 := by
  unfold acov
  rw [Finset.sum_comm]
  apply Finset.sum_eq_zero
  intro t ht
  have ht' := Finset.mem_range.1 ht
  rw [← Finset.mul_sum]
  have : ∑ i ∈ range x.length, centred x ((t + i) % x.length) = ∑ i ∈ range x.length, centred x i := by
    apply Finset.sum_bij (fun i _ => (t + i) % x.length)
    · intro i _; exact Finset.mem_range.2 (Nat.mod_lt _ hN)
    · intro i hi j hj hij
      have hi' := Finset.mem_range.1 hi
      have hj' := Finset.mem_range.1 hj
      have h1 : (t + i) ≡ (t + j) [MOD x.length] := hij
      have h2 := Nat.ModEq.add_left_cancel' t h1
      unfold Nat.ModEq at h2
      rwa [Nat.mod_eq_of_lt hi', Nat.mod_eq_of_lt hj'] at h2
    · intro j hj
      have hj' := Finset.mem_range.1 hj
      refine ⟨(x.length - t + j) % x.length, Finset.mem_range.2 (Nat.mod_lt _ hN), ?_⟩
      rw [Nat.add_mod_mod]
      have : t + (x.length - t + j) = j + x.length := by omega
      rw [this, Nat.add_mod_right, Nat.mod_eq_of_lt hj']
    · intro i _; rfl
  rw [this, sum_centred x hN, mul_zero]

/-! ### The window search -/

theorem windowSearch_spec (rho : ℕ → ℝ) : ∀ (fuel ii : ℕ) (snum : ℝ),
    snum + ∑ j ∈ range fuel, (rho (ii + j) - 1 / 6) < 0 → 0 < fuel →
    ∃ w < fuel, windowSearch rho fuel ii snum =
        (2 * (snum + ∑ j ∈ range (w + 1), (rho (ii + j) - 1 / 6) + ((ii + w : ℕ) : ℝ) / 6), ii + w + 1) ∧
      snum + ∑ j ∈ range (w + 1), (rho (ii + j) - 1 / 6) < 0 ∧
      ∀ v < w, 0 ≤ snum + ∑ j ∈ range (v + 1), (rho (ii + j) - 1 / 6) := by
  intro fuel
  induction fuel with
  | zero => intro ii snum _ h; omega
  | succ fuel ih =>
    intro ii snum h _
    rw [windowSearch]
    by_cases hs : snum + rho ii - 1 / 6 < 0
    · rw [if_pos hs]
      refine ⟨0, by omega, ?_, ?_, fun v hv => by omega⟩
      · simp; ring
      · simp; linarith
    · rw [if_neg hs]
      have hsum : ∀ n, ∑ j ∈ range (n + 1), (rho (ii + j) - 1 / 6) =
          rho ii - 1 / 6 + ∑ j ∈ range n, (rho (ii + 1 + j) - 1 / 6) := by
        intro n
        rw [Finset.sum_range_succ', add_comm]
        congr 1
        apply Finset.sum_congr rfl
        intro j _
        rw [show ii + (j + 1) = ii + 1 + j by omega]
      rw [hsum] at h
      have hf : 0 < fuel := by
        rcases Nat.eq_zero_or_pos fuel with h0 | h0
        · subst h0; simp at h; exact absurd (by linarith) hs
        · exact h0
      obtain ⟨w, hw, e, hneg, hpos⟩ := ih (ii + 1) (snum + rho ii - 1 / 6) (by linarith) hf
      refine ⟨w + 1, by omega, ?_, ?_, ?_⟩
      · rw [e, hsum (w + 1), show ii + 1 + w = ii + (w + 1) by omega]
        congr 1
        ring
      · rw [hsum (w + 1)]; linarith
      · intro v hv
        rw [hsum v]
        cases v with
        | zero => simp; linarith
        | succ v =>
          have := hpos v (by omega)
          linarith

/-- **C52, non-constant columns.** For every column of at least two values that are not all equal
the search stops at a window inside the chain, the smallest window `w` with `3 τ(w) < w`
(Sokal's rule), and the reported time is `τ(w)`, one plus twice the sum of the circular
autocorrelations of the centred column at the lags `1 … w`. -/
theorem C52_window {x : List ℝ} (hx : ¬ ∃ c, ∀ a ∈ x, a = c) :
    ∃ w < x.length, autocorrelationTime x = .ok (sokalTime x w, w + 1) ∧
      IsLeast {v : ℕ | 3 * sokalTime x v < v} w := by
  have hN2 : 2 ≤ x.length := by
    by_contra hc
    apply hx
    match x, hc with
    | [], _ => exact ⟨0, by simp⟩
    | [a], _ => exact ⟨a, by simp⟩
    | a :: b :: l, hc => simp at hc
  have hN : 0 < x.length := by omega
  have hN0 : (x.length : ℝ) ≠ 0 := by exact_mod_cast hN.ne'
  have hN1 : (x.length : ℝ) - 1 ≠ 0 := by
    have : (2 : ℝ) ≤ x.length := by exact_mod_cast hN2
    linarith
  have h0 : acov x 0 ≠ 0 := fun h => hx ((acov_zero_iff x hN).1 h)
  have hrho : (fun i => periodogramTransform x i / periodogramTransform x 0) = acorr x := by
    funext i
    rw [periodogramTransform_eq x hN, periodogramTransform_eq x hN, mul_div_mul_left _ _ hN0]
    rfl
  have hsum0 : ∑ j ∈ range x.length, acorr x j = 0 := by
    unfold acorr
    rw [← Finset.sum_div, sum_acov x hN, zero_div]
  have hr0 : acorr x 0 = 1 := div_self h0
  have hpart : ∀ v, (-1 / 3 : ℝ) + ∑ j ∈ range (v + 1), (acorr x (0 + j) - 1 / 6) =
      (sokalTime x v - v / 3) / 2 := by
    intro v
    unfold sokalTime
    simp only [zero_add]
    rw [Finset.sum_sub_distrib, Finset.sum_range_succ', hr0]
    simp
    ring
  obtain ⟨w, hw, e, hneg, hpos⟩ := windowSearch_spec (acorr x) x.length 0 (-1 / 3) (by
    simp only [zero_add]
    rw [Finset.sum_sub_distrib, hsum0]
    simp
    have : (0 : ℝ) < x.length := by exact_mod_cast hN
    linarith) hN
  refine ⟨w, hw, ?_, ?_, ?_⟩
  · unfold autocorrelationTime
    rw [if_neg (by omega), if_neg (by omega)]
    simp only
    rw [if_neg, hrho, e, hpart]
    · congr 2
      · push_cast
        ring
      · omega
    · rw [periodogramTransform_eq x hN]
      exact div_ne_zero (div_ne_zero (mul_ne_zero hN0 h0) hN0) hN1
  · rw [hpart] at hneg
    show 3 * sokalTime x w < w
    linarith
  · intro v hv
    by_contra hc
    have h1 := hpos v (by omega)
    rw [hpart] at h1
    have h2 : 3 * sokalTime x v < v := hv
    linarith

/-- **C52, constant columns.** For a constant column the time is zero and no window is reported. -/
theorem C52_constant {x : List ℝ} (hN : x ≠ []) (hx : ∃ c, ∀ a ∈ x, a = c) :
    autocorrelationTime x = .ok (0, 0) := by
  have hN' : 0 < x.length := List.length_pos_iff.2 hN
  unfold autocorrelationTime
  rw [if_neg (by omega)]
  by_cases h1 : x.length = 1
  · rw [if_pos h1]
  · rw [if_neg h1]
    simp only
    rw [if_pos]
    rw [periodogramTransform_eq x hN', (acov_zero_iff x hN').2 hx]
    simp

/-- A constant chain of three values. -/
example : autocorrelationTime [3, 3, (3 : ℝ)] = .ok (0, 0) :=
  C52_constant (by simp) ⟨3, by simp⟩

/-- **C52, range.** The reported time is never larger than a third of the number of rows, and a
result is returned for every non-empty column. -/
theorem C52_range {x : List ℝ} (hN : x ≠ []) :
    ∃ tau m, autocorrelationTime x = .ok (tau, m) ∧ m ≤ x.length ∧ 3 * tau ≤ m := by
  by_cases hx : ∃ c, ∀ a ∈ x, a = c
  · exact ⟨0, 0, C52_constant hN hx, by simp, by simp⟩
  · obtain ⟨w, hw, e, hl⟩ := C52_window hx
    refine ⟨_, _, e, by omega, ?_⟩
    have : 3 * sokalTime x w < w := hl.1
    push_cast
    linarith

/-- a column that is not constant -/
example : ¬ ∃ c, ∀ a ∈ ([1, 2, 4] : List ℝ), a = c := by
  rintro ⟨c, hc⟩
  have h1 := hc 1 (by simp)
  have h2 := hc 2 (by simp)
  rw [← h1] at h2
  norm_num at h2

end Verif
