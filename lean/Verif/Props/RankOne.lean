import Verif.Lemmas.CovXR
import Verif.Spec.LinAlg
import Mathlib.Analysis.Real.Sqrt

/-! # C19: the rank-one update of a Cholesky factor -/

set_option linter.unusedSectionVars false

namespace Verif
open Matrix
variable {n : ℕ}

/-- induction along a loop over `range(n)` -/
theorem foldl_finRange_inv {α : Type} (f : α → Fin n → α) (a : α) (P : ℕ → α → Prop) (h0 : P 0 a)
    (hs : ∀ (i : Fin n) (b : α), P i b → P (i + 1) (f b i)) :
    P n ((List.finRange n).foldl f a) := by
  have key : ∀ k ≤ n, P k (((List.finRange n).take k).foldl f a) := by
    intro k
    induction k with
    | zero => intro _; simpa using h0
    | succ k ih =>
      intro hk
      rw [List.take_succ_eq_append_getElem (by simpa using hk), List.foldl_append]
      simpa using hs ⟨k, hk⟩ _ (ih (by omega))
  have := key n le_rfl
  rwa [List.take_of_length_le (by simp)] at this

/-- one round of the update over the reals -/
noncomputable def cholStepR (R : Matrix (Fin n) (Fin n) ℝ) (x : Fin n → ℝ) (k : Fin n) :
    Matrix (Fin n) (Fin n) ℝ × (Fin n → ℝ) :=
  let r := Real.sqrt (R k k * R k k + x k * x k)
  let c := r / R k k
  let s := x k / R k k
  (Matrix.of fun i j => if i = k then if j = k then r else if k < j then (R k j + s * x j) / c else R i j
      else R i j,
    fun j => if k < j then c * x j - s * ((R k j + s * x j) / c) else x j)

theorem cholStep_fin {R : Matrix (Fin n) (Fin n) ℝ} {x : Fin n → ℝ} {k : Fin n} (h : R k k ≠ 0) :
    cholStep (finMx R, finVec x) k = (finMx (cholStepR R x k).1, finVec (cholStepR R x k).2) := by
  have hp : 0 < R k k * R k k + x k * x k := by
    have := mul_self_nonneg (x k); have := mul_self_pos.2 h; linarith
  have hr : Real.sqrt (R k k * R k k + x k * x k) ≠ 0 := (Real.sqrt_pos.2 hp).ne'
  have hc : Real.sqrt (R k k * R k k + x k * x k) / R k k ≠ 0 := div_ne_zero hr h
  have e2 : ∀ b : ℝ, b ≠ 0 → (lit 1 : XR) / .fin b = .fin (1 / b) := by
    intro b hb
    rw [XR.lit_eq, XR.fin_div hb]; simp
  have e3 : ∀ i j, finMx R i j = .fin (R i j) := fun _ _ => rfl
  have e4 : ∀ j, finVec x j = .fin (x j) := fun _ => rfl
  have hc' : Real.sqrt (R k k * R k k + x k * x k) * (1 / R k k) ≠ 0 := by simpa [div_eq_mul_inv] using hc
  unfold cholStep
  simp only [e3, e4, XR.fin_mul, XR.fin_add, XR.sqrt_fin hp.le, e2 _ h, e2 _ hc', XR.fin_sub]
  refine Prod.ext ?_ ?_
  · funext i j
    change _ = XR.fin ((cholStepR R x k).1 i j)
    simp only [cholStepR, of_apply]
    split_ifs <;> simp [div_eq_mul_inv]
  · funext j
    change _ = XR.fin ((cholStepR R x k).2 j)
    simp only [cholStepR]
    by_cases hj : k < j
    · rw [if_pos hj, if_pos hj, if_neg hj.ne', if_pos hj]
      simp [div_eq_mul_inv]
    · rw [if_neg hj, if_neg hj]

/-- what is left after `k` rounds -/
structure CholInv (A : Matrix (Fin n) (Fin n) ℝ) (k : ℕ) (p : Mat XR n × Vec XR n) : Prop where
  split : ∃ (R : Matrix (Fin n) (Fin n) ℝ) (x : Fin n → ℝ), p = (finMx R, finVec x) ∧
    (∀ i j, j < i → R i j = 0) ∧ (∀ i, R i i ≠ 0) ∧ (∀ i : Fin n, i < k → 0 < R i i) ∧
    ∀ a b, (Rᵀ * R) a b + (if k ≤ (a : ℕ) ∧ k ≤ (b : ℕ) then x a * x b else 0) = A a b

theorem CholInv.step {A : Matrix (Fin n) (Fin n) ℝ} {p : Mat XR n × Vec XR n} {k : Fin n}
    (h : CholInv A k p) : CholInv A (k + 1) (cholStep p k) := by
  obtain ⟨R, x, rfl, htri, hd, hpos, hA⟩ := h.split
  have hk := hd k
  have hp : 0 < R k k * R k k + x k * x k := by
    have := mul_self_nonneg (x k); have := mul_self_pos.2 hk; linarith
  have hr : 0 < Real.sqrt (R k k * R k k + x k * x k) := Real.sqrt_pos.2 hp
  have hr2 := Real.mul_self_sqrt hp.le
  rw [cholStep_fin hk]
  set r := Real.sqrt (R k k * R k k + x k * x k) with hrdef
  refine ⟨_, _, rfl, ?_, ?_, ?_, ?_⟩
  · intro i j hj
    simp only [cholStepR, of_apply]
    split_ifs with h1 h2 h3
    · subst h1; subst h2; exact absurd hj (lt_irrefl _)
    · subst h1; exact absurd hj h3.asymm
    · exact htri i j hj
    · exact htri i j hj
  · intro i
    simp only [cholStepR, of_apply]
    split_ifs with h1 h3
    · exact hr.ne'
    · exact hd i
  · intro i hi
    simp only [cholStepR, of_apply]
    split_ifs with h1 h3
    · exact hr
    · exact hpos i (by
        have : (i : ℕ) ≠ k := fun e => h1 (Fin.ext e)
        omega)
  · intro a b
    rw [← hA a b]
    have hrow : ∀ i, i ≠ k → ∀ j, (cholStepR R x k).1 i j = R i j := by
      intro i hi j
      simp [cholStepR, hi]
    have hsum : ∀ S : Matrix (Fin n) (Fin n) ℝ, (Sᵀ * S) a b =
        S k a * S k b + ∑ i ∈ Finset.univ.erase k, S i a * S i b := by
      intro S
      rw [mul_apply, ← Finset.add_sum_erase _ _ (Finset.mem_univ k)]
      rfl
    rw [hsum, hsum, Finset.sum_congr rfl fun i hi => by
      rw [hrow i (Finset.ne_of_mem_erase hi), hrow i (Finset.ne_of_mem_erase hi)]]
    have hc2 : (r / R k k) * (r / R k k) = 1 + (x k / R k k) * (x k / R k k) := by
      field_simp
      nlinarith [hr2]
    have hc : r / R k k ≠ 0 := div_ne_zero hr.ne' hk
    have main : (cholStepR R x k).1 k a * (cholStepR R x k).1 k b +
        (if (k : ℕ) + 1 ≤ a ∧ (k : ℕ) + 1 ≤ b then (cholStepR R x k).2 a * (cholStepR R x k).2 b else 0) =
        R k a * R k b + if (k : ℕ) ≤ a ∧ (k : ℕ) ≤ b then x a * x b else 0 := by
      have hent : ∀ j, (cholStepR R x k).1 k j =
          if j = k then r else if k < j then (R k j + x k / R k k * x j) / (r / R k k) else 0 := by
        intro j
        simp only [cholStepR, of_apply, if_true]
        split_ifs with h1 h2
        · rfl
        · rfl
        · exact htri k j (lt_of_le_of_ne (not_lt.1 h2) h1)
      have hx2 : ∀ j, k < j → (cholStepR R x k).2 j =
          (x j - x k / R k k * R k j) / (r / R k k) := by
        intro j hj
        simp only [cholStepR, if_pos hj]
        rw [eq_div_iff hc, sub_mul, mul_assoc (x k / R k k), div_mul_cancel₀ _ hc, mul_right_comm]
        rw [← hrdef, hc2]
        ring
      have hlt : ∀ j : Fin n, (k : ℕ) + 1 ≤ j ↔ k < j := fun j => Nat.succ_le_iff.trans Fin.lt_def.symm
      have hle : ∀ j : Fin n, (k : ℕ) ≤ j ↔ k ≤ j := fun j => Fin.le_def.symm
      simp only [hlt, hle, hent]
      rcases lt_trichotomy a k with ha | rfl | ha
      · simp [ha.ne, ha.asymm, not_le.2 ha, htri k a ha]
      · rcases lt_trichotomy b a with hb | rfl | hb
        · simp [hb.ne, hb.asymm, not_le.2 hb, htri a b hb]
        · simp [hr2]
        · simp only [if_true, hb.ne', if_false, hb, lt_irrefl, false_and, le_refl, hb.le, and_self]
          have : r * ((R a b + x a / R a a * x b) / (r / R a a)) =
              R a a * (R a b + x a / R a a * x b) := by
            field_simp
          rw [this]
          field_simp
          ring
      · rcases lt_trichotomy b k with hb | rfl | hb
        · simp [hb.ne, hb.asymm, not_le.2 hb, htri k b hb]
        · simp only [if_true, ha.ne', if_false, ha, lt_irrefl, and_false, le_refl, ha.le, and_self]
          have : (R b a + x b / R b b * x a) / (r / R b b) * r =
              R b b * (R b a + x b / R b b * x a) := by
            field_simp
          rw [this]
          field_simp
          ring
        · rw [if_neg ha.ne', if_pos ha, if_neg hb.ne', if_pos hb, if_pos ⟨ha, hb⟩,
            if_pos ⟨ha.le, hb.le⟩, hx2 a ha, hx2 b hb]
          generalize r / R k k = c at hc hc2
          rw [div_mul_div_comm, div_mul_div_comm, ← add_div, div_eq_iff (mul_ne_zero hc hc), hc2]
          ring
    linarith [main]

/-- **C19.** For an upper triangular factor with non-zero diagonal and any vector, the rank-one
update returns an upper triangular factor with positive diagonal of `RᵀR + x xᵀ`. -/
theorem C19_rank_one_update {R : Matrix (Fin n) (Fin n) ℝ} (htri : ∀ i j, j < i → R i j = 0)
    (hd : ∀ i, R i i ≠ 0) (x : Fin n → ℝ) :
    ∃ R1 : Matrix (Fin n) (Fin n) ℝ, cholupdate (finMx R) (finVec x) = finMx R1 ∧
      (∀ i j, j < i → R1 i j = 0) ∧ (∀ i, 0 < R1 i i) ∧
      R1ᵀ * R1 = Rᵀ * R + vecMulVec x x := by
  have h := foldl_finRange_inv cholStep (finMx R, finVec x)
    (CholInv (Rᵀ * R + vecMulVec x x)) ⟨R, x, rfl, htri, hd, by simp, fun a b => by
      simp [vecMulVec_apply]⟩ (fun i b hb => hb.step)
  obtain ⟨R1, x1, e, t, _, p, g⟩ := h.split
  refine ⟨R1, congrArg Prod.fst e, t, fun i => p i i.2, ?_⟩
  ext a b
  rw [← g a b, if_neg (fun h => absurd a.2 (not_lt.2 h.1)), add_zero]

/-- **C19**, use in the covariance recursion: if `RᵀR` is the covariance before a row is added, the
updated factor is one of the covariance after it, for a weight sum above one and any positive
weight. -/
theorem C19_tracks_covariance {R : Matrix (Fin n) (Fin n) ℝ} (htri : ∀ i j, j < i → R i j = 0)
    (hd : ∀ i, R i i ≠ 0) (mean x : Fin n → ℝ) {ws w : ℝ} (hws : 1 < ws) (hw : 0 < w) :
    ∃ R1 : Matrix (Fin n) (Fin n) ℝ,
      (let s := setupCholupdate (finMx R) (.fin ws) (.fin w) (finVec mean) (finVec x)
       cholupdate s.1 s.2 = finMx R1) ∧
      (∀ i j, j < i → R1 i j = 0) ∧ (∀ i, 0 < R1 i i) ∧
      (covStep (finMx (Rᵀ * R), finVec mean, .fin ws) (finVec x, .fin w)).1 = finMx (R1ᵀ * R1) := by
  have p1 : 0 < w + ws - 1 := by linarith
  have p2 : 0 < w + ws := by linarith
  have p3 : 0 < ws - 1 := by linarith
  have p4 : 0 < ws := by linarith
  have q1 : (0 : ℝ) ≤ (ws - 1) * (1 / (w + ws - 1)) := by positivity
  have q2 : (0 : ℝ) ≤ w * ws * (1 / (w + ws - 1)) * (1 / (w + ws)) := by positivity
  set f := Real.sqrt ((ws - 1) * (1 / (w + ws - 1))) with hf
  set g := Real.sqrt (w * ws * (1 / (w + ws - 1)) * (1 / (w + ws))) with hg
  have f0 : f ≠ 0 := (Real.sqrt_pos.2 (by positivity)).ne'
  obtain ⟨R1, e1, e2, e3, e4⟩ := C19_rank_one_update (R := f • R)
    (fun i j h => by simp [htri i j h]) (fun i => by simp [hd i, f0]) (fun i => (x i - mean i) * g)
  have i1 : (lit 1 : XR) = .fin 1 := by simp
  refine ⟨R1, ?_, e2, e3, ?_⟩
  · rw [← e1]
    unfold setupCholupdate
    simp only [i1, XR.fin_add, XR.fin_sub, XR.fin_div p1.ne', XR.fin_div p2.ne', XR.fin_mul,
      XR.sqrt_fin q1, XR.sqrt_fin q2]
    rfl
  · rw [e4]
    unfold covStep
    funext i j
    simp only [i1, finMx, finMat, finVec, XR.fin_add, XR.fin_sub, XR.fin_div p1.ne',
      XR.fin_div p2.ne', XR.fin_mul, XR.fin_inj]
    have h1 : f * f = (ws - 1) * (1 / (w + ws - 1)) := Real.mul_self_sqrt q1
    have h2 : g * g = w * ws * (1 / (w + ws - 1)) * (1 / (w + ws)) := Real.mul_self_sqrt q2
    rw [← h1, ← h2, Matrix.add_apply, vecMulVec_apply, transpose_smul, smul_mul_smul_comm,
      Matrix.smul_apply, smul_eq_mul]
    ring

/-- a factor with a non-zero entry above the diagonal that meets the hypotheses of `C19_rank_one_update`
and `C19_tracks_covariance`, and the value of the update of its covariance -/
example : (∀ i j : Fin 2, j < i → !![1, 2; 0, -3] i j = (0 : ℝ)) ∧
    (∀ i : Fin 2, !![1, 2; 0, -3] i i ≠ (0 : ℝ)) ∧
    ∃ R1 : Matrix (Fin 2) (Fin 2) ℝ, cholupdate (finMx !![1, 2; 0, -3]) (finVec ![1, 1]) = finMx R1 ∧
      R1ᵀ * R1 = !![2, 3; 3, 14] := by
  have h1 : ∀ i j : Fin 2, j < i → !![1, 2; 0, -3] i j = (0 : ℝ) := by
    intro i j h; fin_cases i <;> fin_cases j <;> simp_all
  have h2 : ∀ i : Fin 2, !![1, 2; 0, -3] i i ≠ (0 : ℝ) := by
    intro i; fin_cases i <;> simp
  refine ⟨h1, h2, ?_⟩
  obtain ⟨R1, e, _, _, h⟩ := C19_rank_one_update h1 h2 ![1, 1]
  refine ⟨R1, e, ?_⟩
  rw [h]
  ext i j
  fin_cases i <;> fin_cases j <;> simp [vecMulVec_apply, mul_apply, Fin.sum_univ_two] <;> norm_num

end Verif
