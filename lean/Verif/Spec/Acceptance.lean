import Verif.Spec.Points
import Mathlib.Algebra.BigOperators.Fin

/-! # The acceptance probability of delayed rejection, as in the literature

Tierney and Mira (1999), Green and Mira (2001), Haario et al. (2006), eq. (2): nothing here refers to
the code. -/

namespace Verif
open Finset
variable {n : ℕ}

/-- The probability of accepting the last point of the path `P 0, P 1, …, P (l + 1)` when the proposals
`P 1, …, P l` were rejected.  The proposal of stage `k + 1` is Gaussian around the starting point
with precision matrix `(W k) (W k)ᵀ`.  Numerator: density at the last point, density of proposing
the points of the path in reversed order from there, probability of rejecting them; denominator:
the same for the path itself. -/
noncomputable def drAlpha (W : ℕ → Fin n → Fin n → ℝ) (l : ℕ) (P : ℕ → Point n) : ℝ :=
  min 1 (((P (l + 1)).density *
      (∏ k ∈ range (l + 1), gauss (W k) (P (l + 1)).theta (P (l - k)).theta) *
      ∏ k : Fin l, (1 - drAlpha W k fun i => P (l + 1 - i))) /
    ((P 0).density * (∏ k ∈ range (l + 1), gauss (W k) (P 0).theta (P (k + 1)).theta) *
      ∏ k : Fin l, (1 - drAlpha W k P)))
termination_by l
decreasing_by all_goals exact k.isLt

theorem drAlpha_congr (W : ℕ → Fin n → Fin n → ℝ) (l : ℕ) : ∀ {P Q : ℕ → Point n},
    (∀ i ≤ l + 1, P i = Q i) → drAlpha W l P = drAlpha W l Q := by
  induction l using Nat.strong_induction_on with
  | _ l ih =>
    intro P Q h
    rw [drAlpha, drAlpha, h 0 (by omega), h (l + 1) le_rfl]
    congr 2
    · congr 1
      · congr 1
        refine Finset.prod_congr rfl fun k hk => ?_
        rw [h (l - k) (by omega)]
      · refine Finset.prod_congr rfl fun k _ => ?_
        rw [ih k k.isLt fun i hi => h (l + 1 - i) (by omega)]
    · congr 1
      · congr 1
        refine Finset.prod_congr rfl fun k hk => ?_
        rw [mem_range] at hk
        rw [h (k + 1) (by omega)]
      · refine Finset.prod_congr rfl fun k _ => ?_
        have := k.isLt
        rw [ih k k.isLt fun i hi => h i (by omega)]

theorem Point.density_nonneg (p : Point n) : 0 ≤ p.density := by
  unfold Point.density
  split
  · exact le_rfl
  · exact (Real.exp_pos _).le

theorem drAlpha_le_one (W : ℕ → Fin n → Fin n → ℝ) (l : ℕ) (P : ℕ → Point n) : drAlpha W l P ≤ 1 := by
  rw [drAlpha]; exact min_le_left _ _

theorem drAlpha_nonneg (W : ℕ → Fin n → Fin n → ℝ) (l : ℕ) (P : ℕ → Point n) : 0 ≤ drAlpha W l P := by
  rw [drAlpha]
  refine le_min zero_le_one (div_nonneg ?_ ?_) <;>
  · refine mul_nonneg (mul_nonneg (Point.density_nonneg _) (prod_nonneg fun k _ => (Real.exp_pos _).le))
      (prod_nonneg fun k _ => ?_)
    rw [sub_nonneg]; exact drAlpha_le_one _ _ _

/-- the probability (density) of the path with its last proposal accepted -/
noncomputable def pathDensity (W : ℕ → Fin n → Fin n → ℝ) (l : ℕ) (P : ℕ → Point n) : ℝ :=
  (P 0).density * (∏ k ∈ range (l + 1), gauss (W k) (P 0).theta (P (k + 1)).theta) *
    (∏ k : Fin l, (1 - drAlpha W k P)) * drAlpha W l P

/-- The formula satisfies detailed balance on every path, for every number of stages. -/
theorem drAlpha_balance (W : ℕ → Fin n → Fin n → ℝ) (l : ℕ) (P : ℕ → Point n) :
    pathDensity W l P = pathDensity W l fun i => P (l + 1 - i) := by
  have key : ∀ A B : ℝ, 0 ≤ A → 0 ≤ B → A * min 1 (B / A) = B * min 1 (A / B) := by
    intro A B hA hB
    rcases hA.eq_or_lt with rfl | hA
    · simp
    rcases hB.eq_or_lt with rfl | hB
    · simp
    rw [mul_min_of_nonneg _ _ hA.le, mul_min_of_nonneg _ _ hB.le, mul_div_cancel₀ _ hA.ne',
      mul_div_cancel₀ _ hB.ne', mul_one, mul_one, min_comm]
  have hrev : ∀ k : Fin l, drAlpha W k (fun i => P (l + 1 - (l + 1 - i))) = drAlpha W k P := by
    intro k
    refine drAlpha_congr W k fun i hi => ?_
    have := k.isLt
    rw [show l + 1 - (l + 1 - i) = i by omega]
  have hpos : ∀ Q : ℕ → Point n, 0 ≤ (Q 0).density *
      (∏ k ∈ range (l + 1), gauss (W k) (Q 0).theta (Q (k + 1)).theta) * ∏ k : Fin l, (1 - drAlpha W k Q) := by
    intro Q
    refine mul_nonneg (mul_nonneg (Point.density_nonneg _) (prod_nonneg fun k _ => (Real.exp_pos _).le))
      (prod_nonneg fun k _ => ?_)
    rw [sub_nonneg]; exact drAlpha_le_one _ _ _
  have h1 := hpos P
  have h2 := hpos fun i => P (l + 1 - i)
  simp only [Nat.sub_zero] at h2
  unfold pathDensity
  rw [drAlpha, drAlpha]
  simp only [hrev, Nat.sub_zero, Nat.sub_self, show ∀ k, l + 1 - (k + 1) = l - k by omega] at h2 ⊢
  rw [key _ _ h1 h2]
  congr 3
  congr 2
  refine Finset.prod_congr rfl fun k hk => ?_
  rw [mem_range] at hk
  rw [show l + 1 - (l - k) = k + 1 by omega]

end Verif
