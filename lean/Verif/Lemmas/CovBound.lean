import Verif.Spec.Stats
import Mathlib.Algebra.Order.BigOperators.Group.List
import Mathlib.Algebra.Order.AbsoluteValue.Basic
import Mathlib.Tactic.Linarith
import Mathlib.Tactic.FieldSimp
import Mathlib.Tactic.Ring
import Mathlib.Tactic.Positivity

/-! # How far further rows can move a sample mean and a sample covariance -/

namespace Verif
variable {n : ℕ}

/-- sum of the products of the deviations from `c` and `d` -/
noncomputable def devSum (c d : ℝ) (rows : List (Fin n → ℝ)) (i j : Fin n) : ℝ :=
  (rows.map fun r => (r i - c) * (r j - d)).sum

theorem devSum_expand (c d : ℝ) (rows : List (Fin n → ℝ)) (i j : Fin n) :
    devSum c d rows i j = (rows.map fun r => r i * r j).sum - c * (rows.map fun r => r j).sum
      - d * (rows.map fun r => r i).sum + rows.length * (c * d) := by
  unfold devSum
  induction rows with
  | nil => simp
  | cons r l ih => simp only [List.map_cons, List.sum_cons, List.length_cons]; rw [ih]; push_cast; ring

theorem sampleMean_mul {rows : List (Fin n → ℝ)} (h : rows ≠ []) (i : Fin n) :
    (rows.map fun r => r i).sum = rows.length * sampleMean rows i := by
  have : (rows.length : ℝ) ≠ 0 := by simpa using h
  unfold sampleMean
  field_simp

/-- further rows add to the scatter the products of their deviations from the new mean of the one
entry and the old mean of the other -/
theorem scatter_append {l l' : List (Fin n → ℝ)} (h : l ≠ []) (i j : Fin n) :
    devSum (sampleMean (l ++ l') i) (sampleMean (l ++ l') j) (l ++ l') i j =
      devSum (sampleMean l i) (sampleMean l j) l i j +
      devSum (sampleMean (l ++ l') i) (sampleMean l j) l' i j := by
  have h' : l ++ l' ≠ [] := by simp [h]
  have e1 := sampleMean_mul h i
  have e2 := sampleMean_mul h j
  have e3 := sampleMean_mul h' i
  have e4 := sampleMean_mul h' j
  rw [List.map_append, List.sum_append, List.length_append] at e3 e4
  simp only [devSum_expand, List.map_append, List.sum_append, List.length_append]
  push_cast at *
  rw [e1] at *
  rw [e2] at *
  generalize sampleMean (l ++ l') i = a at *
  generalize sampleMean (l ++ l') j = b at *
  generalize sampleMean l i = c at *
  generalize sampleMean l j = d at *
  linear_combination (-b + d) * e3

theorem sampleMean_mem {rows : List (Fin n → ℝ)} (h : rows ≠ []) {i : Fin n} {a b : ℝ}
    (hb : ∀ r ∈ rows, a ≤ r i ∧ r i ≤ b) : a ≤ sampleMean rows i ∧ sampleMean rows i ≤ b := by
  have hl : (0 : ℝ) < rows.length := by exact_mod_cast List.length_pos_of_ne_nil h
  unfold sampleMean
  rw [le_div_iff₀ hl, div_le_iff₀ hl]
  clear hl h
  induction rows with
  | nil => simp
  | cons r l ih =>
    obtain ⟨h1, h2⟩ := ih fun r hr => hb r (by simp [hr])
    obtain ⟨h3, h4⟩ := hb r (by simp)
    simp only [List.map_cons, List.sum_cons, List.length_cons]
    push_cast
    constructor <;> linarith

theorem abs_devSum_le {rows : List (Fin n → ℝ)} {i j : Fin n} {c d A B : ℝ} (hA : 0 ≤ A)
    (h : ∀ r ∈ rows, |r i - c| ≤ A ∧ |r j - d| ≤ B) : |devSum c d rows i j| ≤ rows.length * (A * B) := by
  unfold devSum
  induction rows with
  | nil => simp
  | cons r l ih =>
    have h1 := ih fun r hr => h r (by simp [hr])
    obtain ⟨h2, h3⟩ := h r (by simp)
    simp only [List.map_cons, List.sum_cons, List.length_cons]
    push_cast
    have h4 : |(r i - c) * (r j - d)| ≤ A * B := by
      rw [abs_mul]; exact mul_le_mul h2 h3 (abs_nonneg _) hA
    have := abs_add_le ((r i - c) * (r j - d)) ((l.map fun r => (r i - c) * (r j - d)).sum)
    linarith

theorem abs_sub_le_range {x y a b : ℝ} (hx : a ≤ x ∧ x ≤ b) (hy : a ≤ y ∧ y ≤ b) : |x - y| ≤ b - a := by
  rw [abs_le]; constructor <;> linarith [hx.1, hx.2, hy.1, hy.2]

variable {a b : Fin n → ℝ}

/-- the scatter grows by at most the product of the ranges per row -/
theorem scatter_step {l l' : List (Fin n → ℝ)} (h : l ≠ []) (hb : ∀ r ∈ l ++ l', ∀ i, a i ≤ r i ∧ r i ≤ b i)
    (i j : Fin n) :
    |devSum (sampleMean (l ++ l') i) (sampleMean (l ++ l') j) (l ++ l') i j -
      devSum (sampleMean l i) (sampleMean l j) l i j| ≤ l'.length * ((b i - a i) * (b j - a j)) := by
  rw [scatter_append h, add_sub_cancel_left]
  have h' : l ++ l' ≠ [] := by simp [h]
  have m1 := sampleMean_mem h' (i := i) fun r hr => hb r hr i
  have m2 := sampleMean_mem h (i := j) fun r hr => hb r (by simp [hr]) j
  refine abs_devSum_le (by linarith [m1.1, m1.2]) fun r hr => ?_
  exact ⟨abs_sub_le_range (hb r (by simp [hr]) i) m1, abs_sub_le_range (hb r (by simp [hr]) j) m2⟩

theorem scatter_bound {l : List (Fin n → ℝ)} (h : l ≠ []) (hb : ∀ r ∈ l, ∀ i, a i ≤ r i ∧ r i ≤ b i)
    (i j : Fin n) :
    |devSum (sampleMean l i) (sampleMean l j) l i j| ≤ ((l.length : ℝ) - 1) * ((b i - a i) * (b j - a j)) := by
  match l, h with
  | r :: l, _ =>
    have := scatter_step (l := [r]) (l' := l) (by simp) hb i j
    simpa [devSum, sampleMean] using this

/-- **The covariance settles.** If all rows lie within `[a, b]`, further rows move an entry of the sample
covariance by at most twice the product of the ranges, times the share of the further rows. -/
theorem sampleCov_append {l l' : List (Fin n → ℝ)} (h : l ≠ []) (hb : ∀ r ∈ l ++ l', ∀ i, a i ≤ r i ∧ r i ≤ b i)
    (i j : Fin n) :
    |sampleCov (l ++ l') i j - sampleCov l i j| ≤
      2 * ((b i - a i) * (b j - a j)) * l'.length / (((l ++ l').length : ℝ) - 1) := by
  by_cases hl' : l' = []
  · subst hl'; simp
  set D := (b i - a i) * (b j - a j) with hD
  have p0 : (1 : ℝ) ≤ l.length := by exact_mod_cast List.length_pos_of_ne_nil h
  have p1 : (1 : ℝ) ≤ l'.length := by exact_mod_cast List.length_pos_of_ne_nil hl'
  have hlen : ((l ++ l').length : ℝ) = l.length + l'.length := by simp
  have h1 := scatter_step h hb i j
  have h2 := scatter_bound h (fun r hr => hb r (by simp [hr])) i j
  rw [← hD] at h1 h2
  have e1 : sampleCov (l ++ l') i j =
      devSum (sampleMean (l ++ l') i) (sampleMean (l ++ l') j) (l ++ l') i j / (((l ++ l').length : ℝ) - 1) := rfl
  have e2 : sampleCov l i j = devSum (sampleMean l i) (sampleMean l j) l i j / ((l.length : ℝ) - 1) := rfl
  rw [e1, e2]
  generalize devSum (sampleMean (l ++ l') i) (sampleMean (l ++ l') j) (l ++ l') i j = S' at *
  generalize devSum (sampleMean l i) (sampleMean l j) l i j = S at *
  rw [hlen]
  generalize (l.length : ℝ) = k at *
  generalize (l'.length : ℝ) = q at *
  have hp : 0 < k + q - 1 := by linarith
  rw [le_div_iff₀ hp, ← abs_of_pos hp, ← abs_mul, abs_of_pos hp]
  rcases p0.eq_or_lt with hk | hk
  · subst hk
    have : S = 0 := by
      rw [sub_self, zero_mul] at h2
      exact abs_nonpos_iff.1 h2
    subst this
    have e : (S' / (1 + q - 1) - 0 / (1 - 1)) * (1 + q - 1) = S' := by
      rw [sub_self, div_zero, sub_zero, div_mul_cancel₀ _ hp.ne']
    rw [e]
    rw [sub_zero] at h1
    have := abs_nonneg S'
    nlinarith
  · have hk' : 0 < k - 1 := by linarith
    have e : (S' / (k + q - 1) - S / (k - 1)) * (k + q - 1) = (S' - S) - S / (k - 1) * q := by
      field_simp
      ring
    rw [e]
    have h3 : |S / (k - 1)| ≤ D := by
      rw [abs_div, abs_of_pos hk', div_le_iff₀ hk']
      linarith
    have h4 : |S / (k - 1) * q| ≤ D * q := by
      rw [abs_mul, abs_of_pos (by linarith : 0 < q)]
      exact mul_le_mul_of_nonneg_right h3 (by linarith)
    have := abs_sub (S' - S) (S / (k - 1) * q)
    linarith

/-- further rows move an entry of the sample mean by at most its range times their share -/
theorem sampleMean_append {l l' : List (Fin n → ℝ)} (h : l ≠ []) (hb : ∀ r ∈ l ++ l', ∀ i, a i ≤ r i ∧ r i ≤ b i)
    (i : Fin n) :
    |sampleMean (l ++ l') i - sampleMean l i| ≤ (b i - a i) * l'.length / ((l ++ l').length : ℝ) := by
  by_cases hl' : l' = []
  · subst hl'; simp
  have h' : l ++ l' ≠ [] := by simp [h]
  have e1 := sampleMean_mul h i
  have e2 := sampleMean_mul hl' i
  have e3 := sampleMean_mul h' i
  rw [List.map_append, List.sum_append, e1, e2] at e3
  have p : (0 : ℝ) < (l ++ l').length := by exact_mod_cast List.length_pos_of_ne_nil h'
  have p1 : (0 : ℝ) ≤ l'.length := by positivity
  rw [le_div_iff₀ p, ← abs_of_pos p, ← abs_mul]
  have e : (sampleMean (l ++ l') i - sampleMean l i) * ((l ++ l').length : ℝ) =
      (sampleMean l' i - sampleMean l i) * l'.length := by
    rw [sub_mul, mul_comm, ← e3, List.length_append]; push_cast; ring
  rw [e, abs_mul, abs_of_nonneg p1]
  exact mul_le_mul_of_nonneg_right (abs_sub_le_range
    (sampleMean_mem hl' fun r hr => hb r (by simp [hr]) i)
    (sampleMean_mem h fun r hr => hb r (by simp [hr]) i)) p1

end Verif
