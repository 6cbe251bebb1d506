import Verif.Spec.LinAlg
import Mathlib.Analysis.Matrix.LDL
import Mathlib.MeasureTheory.Constructions.Polish.Basic
import Mathlib.MeasureTheory.Constructions.BorelSpace.Real
import Mathlib.Topology.Instances.Matrix

/-! # The Cholesky factor

`np.linalg.cholesky` returns the lower triangular factor with positive diagonal.  It is unique, and a
measurable function of the matrix. -/

namespace Verif
open Matrix
variable {n : ℕ}

/-- lower triangular with positive diagonal -/
def LowerFactor (c : Matrix (Fin n) (Fin n) ℝ) : Prop :=
  (∀ i j, i < j → c i j = 0) ∧ ∀ i, 0 < c i i

/-- the Cholesky routine returns the lower triangular factor with positive diagonal -/
def TriangularFactor (L : Lapack XR) (n : ℕ) : Prop :=
  ∀ A : Matrix (Fin n) (Fin n) ℝ, A.PosDef → ∃ c : Matrix (Fin n) (Fin n) ℝ,
    L.cholesky (finMx A) = some (finMx c) ∧ c * cᵀ = A ∧ LowerFactor c

theorem exists_cholesky {A : Matrix (Fin n) (Fin n) ℝ} (hA : A.PosDef) :
    ∃ c : Matrix (Fin n) (Fin n) ℝ, c * cᵀ = A ∧ LowerFactor c := by
  classical
  have hconj : ∀ B : Matrix (Fin n) (Fin n) ℝ, Bᴴ = Bᵀ := fun B => conjTranspose_eq_transpose_of_trivial B
  have hldl := LDL.lower_conj_diag hA
  rw [hconj] at hldl
  -- the diagonal is positive
  have hD : ∀ i, 0 < LDL.diagEntries hA i := by
    have h1 : (LDL.diag hA).PosDef := by
      rw [LDL.diag_eq_lowerInv_conj hA]
      refine hA.mul_mul_conjTranspose_same ?_
      exact Matrix.vecMul_injective_of_isUnit (isUnit_of_invertible (LDL.lowerInv hA))
    intro i
    have := h1.diag_pos (i := i)
    simpa [LDL.diag] using this
  have hlow : ∀ i j, i < j → LDL.lower hA i j = 0 := by
    have h1 : BlockTriangular (LDL.lowerInv hA) OrderDual.toDual := fun i j hij =>
      LDL.lowerInv_triangular hA hij
    have h2 := blockTriangular_inv_of_blockTriangular h1
    exact fun i j hij => h2 hij
  set c0 : Matrix (Fin n) (Fin n) ℝ := LDL.lower hA * diagonal fun i => √(LDL.diagEntries hA i) with hc0
  have e0 : c0 * c0ᵀ = A := by
    rw [hc0, transpose_mul, diagonal_transpose, ← Matrix.mul_assoc, Matrix.mul_assoc (LDL.lower hA),
      diagonal_mul_diagonal]
    refine Eq.trans ?_ hldl
    congr 2
    unfold LDL.diag
    congr 1
    funext i
    exact Real.mul_self_sqrt (hD i).le
  have l0 : ∀ i j, i < j → c0 i j = 0 := by
    intro i j hij
    rw [hc0, mul_diagonal, hlow i j hij, zero_mul]
  have d0 : ∀ i, c0 i i ≠ 0 := by
    have h1 : c0.det ≠ 0 := by
      intro h
      have := congrArg det e0
      rw [det_mul, h, zero_mul] at this
      exact hA.det_pos.ne this
    have h2 : c0.det = ∏ i, c0 i i :=
      det_of_isLowerTriangular c0 fun i j hij => l0 i j hij
    rw [h2, Finset.prod_ne_zero_iff] at h1
    exact fun i => h1 i (Finset.mem_univ i)
  refine ⟨c0 * diagonal fun i => if 0 < c0 i i then 1 else -1, ?_, ?_, ?_⟩
  · rw [transpose_mul, diagonal_transpose, ← Matrix.mul_assoc, Matrix.mul_assoc c0, diagonal_mul_diagonal]
    have : (fun i => (if 0 < c0 i i then (1 : ℝ) else -1) * if 0 < c0 i i then 1 else -1) = fun _ => 1 := by
      funext i; split <;> norm_num
    rw [this, diagonal_one, Matrix.mul_one, e0]
  · intro i j hij
    rw [mul_diagonal, l0 i j hij, zero_mul]
  · intro i
    rw [mul_diagonal]
    split
    · rename_i h; simpa using h
    · rename_i h
      have := lt_of_le_of_ne (not_lt.1 h) (d0 i)
      linarith

theorem cholesky_unique {c d : Matrix (Fin n) (Fin n) ℝ} (hc : LowerFactor c) (hd : LowerFactor d)
    (h : c * cᵀ = d * dᵀ) : c = d := by
  have entry : ∀ {e : Matrix (Fin n) (Fin n) ℝ}, LowerFactor e → ∀ i j : Fin n,
      (e * eᵀ) i j = (∑ k ∈ Finset.univ.filter (· < j), e i k * e j k) + e i j * e j j := by
    intro e he i j
    rw [mul_apply]
    simp only [transpose_apply]
    rw [← Finset.sum_filter_add_sum_filter_not Finset.univ (· < j)]
    congr 1
    rw [Finset.sum_eq_single j]
    · intro k hk hkj
      have : j < k := lt_of_le_of_ne (not_lt.1 (Finset.mem_filter.1 hk).2) (Ne.symm hkj)
      rw [he.1 j k this, mul_zero]
    · intro hj
      simp at hj
  have key : ∀ (b : ℕ) (j : Fin n), j.val = b → ∀ i : Fin n, c i j = d i j := by
    intro b
    induction b using Nat.strong_induction_on with
    | _ b ih =>
      intro j hj
      have hsum : ∀ i, ∑ k ∈ Finset.univ.filter (· < j), c i k * c j k =
          ∑ k ∈ Finset.univ.filter (· < j), d i k * d j k := by
        intro i
        refine Finset.sum_congr rfl fun k hk => ?_
        have hk : k < j := (Finset.mem_filter.1 hk).2
        have := ih k.val (by rw [← hj]; exact hk) k rfl
        rw [this i, this j]
      have he : ∀ i, c i j * c j j = d i j * d j j := by
        intro i
        have h1 := entry hc i j
        have h2 := entry hd i j
        rw [h, h2, hsum i] at h1
        linarith
      have hdiag : c j j = d j j := by
        have h1 := he j
        have h2 := hc.2 j
        have h3 := hd.2 j
        nlinarith
      intro i
      have h1 := he i
      rw [hdiag] at h1
      exact mul_right_cancel₀ (hd.2 j).ne' h1
  ext i j
  exact key j.val j rfl i

section measurable
open MeasureTheory

theorem measurable_gram : Measurable fun c : Fin n → Fin n → ℝ => fun i j => (of c * (of c)ᵀ) i j := by
  refine measurable_pi_iff.2 fun i => measurable_pi_iff.2 fun j => ?_
  simp only [mul_apply, transpose_apply, of_apply]
  have h1 : ∀ i j : Fin n, Measurable fun c : Fin n → Fin n → ℝ => c i j := fun i j =>
    (measurable_pi_apply j).comp (measurable_pi_apply i)
  exact Finset.measurable_sum _ fun k _ => (h1 i k).mul (h1 j k)

theorem measurableSet_lowerFactor : MeasurableSet {c : Fin n → Fin n → ℝ | LowerFactor (of c)} := by
  have h1 : ∀ i j : Fin n, Measurable fun c : Fin n → Fin n → ℝ => c i j := fun i j =>
    (measurable_pi_apply j).comp (measurable_pi_apply i)
  have : {c : Fin n → Fin n → ℝ | LowerFactor (of c)} =
      (⋂ i, ⋂ j, ⋂ (_ : i < j), {c | c i j = 0}) ∩ ⋂ i, {c | 0 < c i i} := by
    ext c
    simp only [Set.mem_inter_iff, Set.mem_iInter, Set.mem_ofPred_eq, LowerFactor, of_apply]
  rw [this]
  exact (MeasurableSet.iInter fun i => MeasurableSet.iInter fun j => MeasurableSet.iInter fun _ =>
    measurableSet_eq_fun (h1 i j) measurable_const).inter
    (MeasurableSet.iInter fun i => measurableSet_lt measurable_const (h1 i i))

theorem image_gram {B : Set (Fin n → Fin n → ℝ)} (hB : MeasurableSet B) :
    MeasurableSet ((fun c : Fin n → Fin n → ℝ => fun i j => (of c * (of c)ᵀ) i j) ''
      (B ∩ {c | LowerFactor (of c)})) := by
  refine (hB.inter measurableSet_lowerFactor).image_of_measurable_injOn measurable_gram ?_
  intro c hc d hd h
  have : of c * (of c)ᵀ = of d * (of d)ᵀ := by
    ext i j
    exact congrFun (congrFun h i) j
  exact of.injective (cholesky_unique hc.2 hd.2 this)

theorem posDef_of_lowerFactor {c : Matrix (Fin n) (Fin n) ℝ} (h : LowerFactor c) : (c * cᵀ).PosDef := by
  have hdet : c.det ≠ 0 := by
    rw [det_of_isLowerTriangular c fun i j hij => h.1 i j hij, Finset.prod_ne_zero_iff]
    exact fun i _ => (h.2 i).ne'
  have := (PosDef.one (n := Fin n) (R := ℝ)).mul_mul_conjTranspose_same (B := c)
    (Matrix.vecMul_injective_of_isUnit ((isUnit_iff_isUnit_det c).2 (isUnit_iff_ne_zero.2 hdet)))
  rwa [Matrix.mul_one, conjTranspose_eq_transpose_of_trivial] at this

theorem measurableSet_posDef : MeasurableSet {A : Fin n → Fin n → ℝ | (of A).PosDef} := by
  have h := image_gram (n := n) MeasurableSet.univ
  convert h using 1
  ext A
  constructor
  · intro hA
    obtain ⟨c, h1, h2⟩ := exists_cholesky hA
    exact ⟨of.symm c, ⟨trivial, h2⟩, by funext i j; exact congrFun (congrFun h1 i) j⟩
  · rintro ⟨c, ⟨-, hc⟩, rfl⟩
    exact posDef_of_lowerFactor hc

/-- the Cholesky factor is a measurable function -/
theorem measurable_cholesky {f : (Fin n → Fin n → ℝ) → Fin n → Fin n → ℝ}
    (h1 : ∀ A, (of A).PosDef → of (f A) * (of (f A))ᵀ = of A ∧ LowerFactor (of (f A)))
    (h0 : ∀ A, ¬ (of A).PosDef → f A = 0) : Measurable f := by
  intro B hB
  have e : f ⁻¹' B = ((fun c : Fin n → Fin n → ℝ => fun i j => (of c * (of c)ᵀ) i j) ''
      (B ∩ {c | LowerFactor (of c)})) ∪ ({A | (of A).PosDef}ᶜ ∩ {_A | (0 : Fin n → Fin n → ℝ) ∈ B}) := by
    ext A
    by_cases hA : (of A).PosDef
    · obtain ⟨g1, g2⟩ := h1 A hA
      constructor
      · intro h
        exact .inl ⟨f A, ⟨h, g2⟩, by funext i j; exact congrFun (congrFun g1 i) j⟩
      · rintro (⟨c, ⟨hc1, hc2⟩, rfl⟩ | ⟨h, -⟩)
        · have : of (f _) = of c := cholesky_unique g2 hc2 (g1.trans rfl)
          rw [Set.mem_preimage, of.injective this]
          exact hc1
        · exact absurd hA h
    · constructor
      · intro h
        refine .inr ⟨hA, ?_⟩
        rw [Set.mem_preimage, h0 A hA] at h
        exact h
      · rintro (⟨c, ⟨-, hc⟩, rfl⟩ | ⟨-, h⟩)
        · exact absurd (posDef_of_lowerFactor hc) hA
        · rw [Set.mem_preimage, h0 A hA]; exact h
  rw [e]
  refine (image_gram hB).union (measurableSet_posDef.compl.inter ?_)
  exact MeasurableSet.const _

end measurable

/-! ### An exact LAPACK with triangular factors -/

open Classical in
/-- exact linear algebra with the Cholesky factor (not computable) -/
noncomputable def choleskyLapack : Lapack XR where
  cholesky {n} M := if h : ∃ A c : Matrix (Fin n) (Fin n) ℝ, M = finMx A ∧ c * cᵀ = A ∧ LowerFactor c then
    some (finMx h.choose_spec.choose) else none
  inverse := exactLapack.inverse

theorem choleskyLapack_factor (n : ℕ) : TriangularFactor choleskyLapack n := by
  intro A hA
  obtain ⟨c, h1, h2⟩ := exists_cholesky hA
  have h : ∃ B c : Matrix (Fin n) (Fin n) ℝ, finMx A = finMx B ∧ c * cᵀ = B ∧ LowerFactor c :=
    ⟨A, c, rfl, h1, h2⟩
  obtain ⟨e1, e2, e3⟩ := h.choose_spec.choose_spec
  exact ⟨_, dif_pos h, by rw [e2]; exact (finMx_injective e1).symm, e3⟩

theorem choleskyLapack_ok : ExactLapack choleskyLapack where
  chol_some A hA := by
    obtain ⟨c, h1, h2, -⟩ := choleskyLapack_factor _ A hA
    exact ⟨c, h1, h2⟩
  chol_none A _ hA := by
    refine dif_neg ?_
    rintro ⟨B, c, h1, h2, h3⟩
    obtain rfl : A = B := finMx_injective h1
    exact hA (h2 ▸ posDef_of_lowerFactor h3)
  inv_some A hA := exactLapack_ok.inv_some A hA
  inv_none A hA := exactLapack_ok.inv_none A hA

end Verif
