import Verif.Model.Samplers
import Mathlib.Algebra.BigOperators.Fin

/-! # Arithmetic on finite values of `XR` -/

namespace Verif
namespace XR
open Classical

@[simp] theorem lit_eq (q : ℚ) : (lit q : XR) = fin (q : ℝ) := rfl
@[simp] theorem fin_add (a b : ℝ) : fin a + fin b = fin (a + b) := rfl
@[simp] theorem fin_mul (a b : ℝ) : fin a * fin b = fin (a * b) := rfl
@[simp] theorem fin_sub (a b : ℝ) : fin a - fin b = fin (a - b) := by
  change fin (a + -b) = _
  rw [sub_eq_add_neg]
@[simp] theorem fin_neg (a : ℝ) : -fin a = fin (-a) := rfl
theorem fin_div {a b : ℝ} (h : b ≠ 0) : fin a / fin b = fin (a / b) := by
  change (if b = 0 then infMul a else fin (a / b)) = _
  rw [if_neg h]
theorem fin_div_zero {a : ℝ} (h : 0 < a) : fin a / fin 0 = pinf := by
  change (if (0 : ℝ) = 0 then infMul a else fin (a / 0)) = _
  rw [if_pos rfl, infMul, if_pos h]
@[simp] theorem fin_lt (a b : ℝ) : PyFloat.lt (fin a) (fin b) = decide (a < b) := rfl
@[simp] theorem fin_beq (a b : ℝ) : PyFloat.beq (fin a) (fin b) = decide (a = b) := rfl
@[simp] theorem fin_le (a b : ℝ) : PyFloat.le (fin a) (fin b) = decide (a ≤ b) := by
  change (decide (a < b) || decide (a = b)) = _
  by_cases h : a ≤ b
  · rcases lt_or_eq_of_le h with h1 | h1
    · simp [h1, h]
    · simp [h1]
  · have h1 : ¬ a < b := fun h' => h h'.le
    have h2 : ¬ a = b := fun h' => h h'.le
    simp [h, h1, h2]
@[simp] theorem exp_fin (a : ℝ) : PyFloat.exp (fin a) = fin (Real.exp a) := rfl
theorem sqrt_fin {a : ℝ} (h : 0 ≤ a) : PyFloat.sqrt (fin a) = fin (Real.sqrt a) := by
  change (if a < 0 then nan else fin (Real.sqrt a)) = _
  rw [if_neg (not_lt.2 h)]
theorem log_fin {a : ℝ} (h : 0 < a) : PyFloat.log (fin a) = fin (Real.log a) := by
  change (if a < 0 then nan else if a = 0 then ninf else fin (Real.log a)) = _
  rw [if_neg (not_lt.2 h.le), if_neg h.ne']
theorem pow_fin {a b : ℝ} (h : 0 < a) : PyFloat.pow (fin a) (fin b) = fin (a ^ b) := by
  change (if 0 < a then fin (a ^ b) else _) = _
  rw [if_pos h]

theorem fin_injective : Function.Injective fin := fun _ _ h => by cases h; rfl
@[simp] theorem fin_inj {a b : ℝ} : fin a = fin b ↔ a = b := fin_injective.eq_iff

theorem add_fin_fin (y : XR) (a b : ℝ) : y + fin a + fin b = y + fin (a + b) := by
  cases y with
  | nan => rfl
  | ninf => rfl
  | pinf => rfl
  | fin x => simp [add_assoc]

theorem foldl_fin (l : List ℝ) (a : ℝ) :
    (l.map fin).foldl (· + ·) (fin a) = fin (a + l.sum) := by
  induction l generalizing a with
  | nil => simp
  | cons x l ih => simp [ih, add_assoc]

@[simp] theorem lsum_fin (l : List ℝ) : lsum (l.map fin) = fin l.sum := by
  unfold lsum
  rw [lit_eq, foldl_fin]; simp

@[simp] theorem vsum_fin {n : ℕ} (f : Fin n → ℝ) : vsum (fun i => fin (f i)) = fin (∑ i, f i) := by
  unfold vsum
  have : List.ofFn (fun i => fin (f i)) = (List.ofFn f).map fin := by
    rw [List.map_ofFn]; rfl
  rw [this, lsum_fin, List.sum_ofFn]

@[simp] theorem vecMat_fin {n : ℕ} (z : Fin n → ℝ) (R : Fin n → Fin n → ℝ) :
    vecMat (fun i => fin (z i)) (fun i j => fin (R i j)) = fun j => fin (∑ i, z i * R i j) := by
  funext j
  unfold vecMat
  simp

@[simp] theorem matMul_fin {n : ℕ} (A B : Fin n → Fin n → ℝ) :
    matMul (fun i j => fin (A i j)) (fun i j => fin (B i j)) =
      fun i j => fin (∑ k, A i k * B k j) := by
  funext i j
  unfold matMul
  simp

@[simp] theorem normSq_fin {n : ℕ} (v : Fin n → ℝ) :
    normSq (fun i => fin (v i)) = fin (∑ i, v i * v i) := by
  unfold normSq; simp

theorem foldl_pinf (l : List XR) (h : ∀ x ∈ l, x = pinf) : l.foldl (· + ·) pinf = pinf := by
  induction l with
  | nil => rfl
  | cons x l ih =>
    rw [List.foldl_cons, h x (by simp)]
    exact ih fun y hy => h y (List.mem_cons_of_mem _ hy)

theorem vsum_pinf {n : ℕ} (hn : 0 < n) {f : Fin n → XR} (h : ∀ i, f i = pinf) : vsum f = pinf := by
  unfold vsum lsum
  obtain ⟨k, rfl⟩ : ∃ k, n = k + 1 := ⟨n - 1, by omega⟩
  rw [List.ofFn_succ, List.foldl_cons, h 0]
  exact foldl_pinf _ fun x hx => by
    obtain ⟨i, rfl⟩ := List.mem_ofFn.1 hx
    exact h _

theorem pyMin_one_fin (a : ℝ) : pyMin (fin 1) (fin a) = fin (min 1 a) := by
  unfold pyMin
  rw [fin_lt]
  by_cases h : a < 1
  · simp [h, min_eq_right h.le]
  · simp [h, min_eq_left (not_lt.1 h)]

theorem pyMin_one_pinf : pyMin (fin 1) pinf = fin 1 := rfl
theorem pyMin_one_nan : pyMin (fin 1) nan = fin 1 := rfl

theorem pinf_mul_pos {a : ℝ} (h : 0 < a) : pinf * fin a = pinf := by
  change infMul a = _
  rw [infMul, if_pos h]

theorem pos_mul_pinf {a : ℝ} (h : 0 < a) : fin a * pinf = pinf := by
  change infMul a = _
  rw [infMul, if_pos h]

theorem zero_mul_pinf : fin 0 * pinf = nan := by
  change infMul 0 = _
  rw [infMul, if_neg (lt_irrefl _), if_neg (lt_irrefl _)]

theorem neg_mul_pinf {a : ℝ} (h : a < 0) : fin a * pinf = ninf := by
  change infMul a = _
  rw [infMul, if_neg (not_lt.2 h.le), if_pos h]

theorem pinf_div_pos {a : ℝ} (h : 0 < a) : pinf / fin a = pinf := by
  change (if a < 0 then ninf else pinf) = _
  rw [if_neg (not_lt.2 h.le)]

end XR
end Verif
