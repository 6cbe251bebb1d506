import Verif.Model.Adaptation
import Verif.Spec.Stats
import Verif.Lemmas.XR
import Mathlib.Analysis.Matrix.Order

/-! # Exact linear algebra

What the theorems about proposal factors assume of `np.linalg.cholesky` and `np.linalg.solve`,
and a pair of functions that satisfies it. -/

namespace Verif
open Matrix
open scoped MatrixOrder
variable {n : ℕ}

/-- a matrix of the code with finite entries -/
def finMx (A : Matrix (Fin n) (Fin n) ℝ) : Mat XR n := finMat A

/-- LAPACK in exact arithmetic: the Cholesky routine succeeds on a symmetric matrix exactly if it
is positive definite and returns `c` with `c cᵀ = A` then; the solver fails exactly on singular
matrices and returns the inverse otherwise. -/
structure ExactLapack (L : Lapack XR) : Prop where
  chol_some : ∀ {n : ℕ} (A : Matrix (Fin n) (Fin n) ℝ), A.PosDef →
    ∃ c : Matrix (Fin n) (Fin n) ℝ, L.cholesky (finMx A) = some (finMx c) ∧ c * cᵀ = A
  chol_none : ∀ {n : ℕ} (A : Matrix (Fin n) (Fin n) ℝ), A.IsSymm → ¬ A.PosDef →
    L.cholesky (finMx A) = none
  inv_some : ∀ {n : ℕ} (A : Matrix (Fin n) (Fin n) ℝ), IsUnit A →
    ∃ b : Matrix (Fin n) (Fin n) ℝ, L.inverse (finMx A) = some (finMx b) ∧ A * b = 1
  inv_none : ∀ {n : ℕ} (A : Matrix (Fin n) (Fin n) ℝ), ¬ IsUnit A → L.inverse (finMx A) = none

theorem finMx_injective : Function.Injective (finMx (n := n)) := by
  intro A B h
  ext i j
  have := congrFun (congrFun h i) j
  simpa [finMx, finMat] using this

theorem exists_factor {A : Matrix (Fin n) (Fin n) ℝ} (h : A.PosDef) :
    ∃ c : Matrix (Fin n) (Fin n) ℝ, c * cᵀ = A := by
  refine ⟨CFC.sqrt A, ?_⟩
  have h1 : (CFC.sqrt A)ᵀ = CFC.sqrt A := by
    have := (CFC.sqrt_nonneg A).posSemidef.isHermitian
    rw [Matrix.IsHermitian, conjTranspose_eq_transpose_of_trivial] at this
    exact this
  rw [h1]
  exact CFC.sqrt_mul_sqrt_self A h.posSemidef.nonneg

open Classical in
/-- an exact Cholesky factor (not computable; only there to show that `ExactLapack` can be met) -/
noncomputable def exactLapack : Lapack XR where
  cholesky {n} M := if h : ∃ A c : Matrix (Fin n) (Fin n) ℝ, M = finMx A ∧ A.PosDef ∧ c * cᵀ = A then
    some (finMx h.choose_spec.choose) else none
  inverse {n} M := if h : ∃ A b : Matrix (Fin n) (Fin n) ℝ, M = finMx A ∧ A * b = 1 then
    some (finMx h.choose_spec.choose) else none

theorem exactLapack_ok : ExactLapack exactLapack where
  chol_some {n} A hA := by
    have h : ∃ B c : Matrix (Fin n) (Fin n) ℝ, finMx A = finMx B ∧ B.PosDef ∧ c * cᵀ = B :=
      ⟨A, (exists_factor hA).choose, rfl, hA, (exists_factor hA).choose_spec⟩
    refine ⟨_, dif_pos h, ?_⟩
    obtain ⟨h1, _, h3⟩ := h.choose_spec.choose_spec
    rw [h3]
    exact (finMx_injective h1).symm
  chol_none {n} A _ hA := by
    refine dif_neg ?_
    rintro ⟨B, c, h1, h2, h3⟩
    obtain rfl : A = B := finMx_injective h1
    exact hA h2
  inv_some {n} A hA := by
    have h : ∃ B b : Matrix (Fin n) (Fin n) ℝ, finMx A = finMx B ∧ B * b = 1 := by
      obtain ⟨u, rfl⟩ := hA
      exact ⟨u, (u⁻¹ : _ˣ), rfl, u.mul_inv⟩
    refine ⟨_, dif_pos h, ?_⟩
    obtain ⟨h1, h3⟩ := h.choose_spec.choose_spec
    have h4 := finMx_injective h1
    generalize_proofs at h3 ⊢
    exact (congrArg (· * _) h4).trans h3
  inv_none {n} A hA := by
    refine dif_neg ?_
    rintro ⟨B, b, h1, h2⟩
    obtain rfl : A = B := finMx_injective h1
    exact hA (IsUnit.of_mul_eq_one b h2)

/-! ### Operations on finite matrices -/

theorem matT_fin (A : Matrix (Fin n) (Fin n) ℝ) : matT (finMx A) = finMx Aᵀ := rfl

theorem matScale_fin (A : Matrix (Fin n) (Fin n) ℝ) (s : ℝ) :
    matScale (finMx A) (.fin s) = finMx (s • A) := by
  funext i j
  simp [matScale, finMx, finMat, mul_comm]

theorem matEye_fin : (matEye : Mat XR n) = finMx (1 : Matrix (Fin n) (Fin n) ℝ) := by
  funext i j
  unfold matEye finMx finMat
  rw [Matrix.one_apply]
  by_cases h : i = j <;> simp [h]

theorem matAdd_fin (A B : Matrix (Fin n) (Fin n) ℝ) :
    matAdd (finMx A) (finMx B) = finMx (A + B) := by
  funext i j
  simp [matAdd, finMx, finMat]

theorem matMul_finMx (A B : Matrix (Fin n) (Fin n) ℝ) :
    matMul (finMx A) (finMx B) = finMx (A * B) := by
  funext i j
  simp [matMul, finMx, finMat, Matrix.mul_apply]

/-! ### The factor after an adaptation -/

/-- the outcome of the two factorisations -/
theorem checkForSingular_exact {L : Lapack XR} (hL : ExactLapack L) {U : Matrix (Fin n) (Fin n) ℝ}
    (hU : U.IsSymm) (R : Mat XR n) (ε s : ℝ) :
    (U.PosDef → ∃ R' : Matrix (Fin n) (Fin n) ℝ,
      checkForSingular L (finMx U) R (.fin ε) (.fin s) = finMx R' ∧ R'ᵀ * R' = s ^ 2 • U) ∧
    (¬ U.PosDef → (U + ε • 1).PosDef → ∃ R' : Matrix (Fin n) (Fin n) ℝ,
      checkForSingular L (finMx U) R (.fin ε) (.fin s) = finMx R' ∧
        R'ᵀ * R' = s ^ 2 • (U + ε • 1)) ∧
    (¬ U.PosDef → ¬ (U + ε • 1).PosDef →
      checkForSingular L (finMx U) R (.fin ε) (.fin s) = R) := by
  have key : ∀ c : Matrix (Fin n) (Fin n) ℝ, (s • cᵀ)ᵀ * (s • cᵀ) = s ^ 2 • (c * cᵀ) := by
    intro c
    rw [transpose_smul, transpose_transpose, Matrix.smul_mul, Matrix.mul_smul, smul_smul, sq]
  have htmp : matAdd (finMx U) (matScale matEye (.fin ε)) = finMx (U + ε • 1) := by
    rw [matEye_fin, matScale_fin, matAdd_fin]
  have hsymm : (U + ε • 1).IsSymm := by
    rw [Matrix.IsSymm, transpose_add, transpose_smul, transpose_one, hU]
  unfold checkForSingular isSemiPosDefChol adjustCovMatrix scaleCholesky isSemiPosDefChol
  dsimp only
  rw [htmp]
  refine ⟨fun h => ?_, fun h h' => ?_, fun h h' => ?_⟩
  · obtain ⟨c, e, hc⟩ := hL.chol_some U h
    rw [e]
    exact ⟨s • cᵀ, by simp only [Option.map_some]; rw [matT_fin, matScale_fin], by rw [key, hc]⟩
  · obtain ⟨c, e, hc⟩ := hL.chol_some _ h'
    rw [hL.chol_none U hU h, e]
    exact ⟨s • cᵀ, by simp only [Option.map_some, Option.map_none]; rw [matT_fin, matScale_fin],
      by rw [key, hc]⟩
  · rw [hL.chol_none U hU h, hL.chol_none _ hsymm h']
    rfl

/-! ### Proposal covariances -/

/-- The documented scale factor: the option `adascale` if it is positive, `2.4/sqrt(n)` if it is
not given. -/
def IsScale (adascale : Option XR) (n : ℕ) (s : ℝ) : Prop :=
  (adascale = none ∧ s = 24 / 10 / Real.sqrt n) ∨ (adascale = some (.fin s) ∧ 0 < s)

/-- Covariance of the sampled parameters in which the rows and columns of the parameters in `fixed`
are those of `Q` and all other entries those of `S`. -/
def mixedCov (fixed : Fin n → Bool) (Q S : Matrix (Fin n) (Fin n) ℝ) : Matrix (Fin n) (Fin n) ℝ :=
  Matrix.of fun i j => if fixed i = true ∨ fixed j = true then Q i j else S i j

theorem mixedCov_symm {fixed : Fin n → Bool} {Q S : Matrix (Fin n) (Fin n) ℝ} (hQ : Q.IsSymm)
    (hS : S.IsSymm) : (mixedCov fixed Q S).IsSymm := by
  ext i j
  simp only [mixedCov, Matrix.transpose_apply, Matrix.of_apply]
  rw [show Q j i = Q i j from congrFun (congrFun hQ i) j,
    show S j i = S i j from congrFun (congrFun hS i) j]
  by_cases h : fixed i = true <;> by_cases h' : fixed j = true <;> simp [h, h']

theorem updateCovFromCovchain_fin (fixed : Fin n → Bool) (Q S : Matrix (Fin n) (Fin n) ℝ) :
    updateCovFromCovchain (finMx S) (finMx Q) fixed = finMx (mixedCov fixed Q S) := by
  funext i j
  unfold updateCovFromCovchain mixedCov finMx finMat
  dsimp only [Matrix.of_apply]
  by_cases h : fixed i = true <;> by_cases h' : fixed j = true <;> simp [h, h']

theorem checkAdascale_fin {a : Option XR} {n : ℕ} {s : ℝ} {x : XR} (hs : IsScale a n s)
    (h : checkAdascale a n = .ok x) : x = .fin s ∧ 0 < s := by
  unfold checkAdascale at h
  rcases hs with ⟨rfl, rfl⟩ | ⟨rfl, hpos⟩
  · dsimp only at h
    split at h
    · cases h
    · rename_i hn
      have hn' : (0 : ℝ) < n := by exact_mod_cast Nat.pos_of_ne_zero hn
      have hsq : 0 < Real.sqrt n := Real.sqrt_pos.2 hn'
      have e : (ofInt (n : ℤ) : XR) = .fin n := by unfold ofInt; simp
      rw [e, XR.sqrt_fin hn'.le, XR.lit_eq, XR.lit_eq, XR.fin_div hsq.ne', XR.fin_mul] at h
      refine ⟨?_, by positivity⟩
      rw [← Except.ok.inj h]
      congr 1
      push_cast
      ring
  · dsimp only at h
    rw [XR.lit_eq, XR.fin_le, if_neg (by simpa using hpos)] at h
    exact ⟨(Except.ok.inj h).symm, hpos⟩

theorem posDef_add_smul_one {S : Matrix (Fin n) (Fin n) ℝ} (hS : S.PosSemidef) {ε : ℝ} (hε : 0 < ε) :
    (S + ε • 1).PosDef := by
  rw [add_comm]
  refine PosDef.add_posSemidef ?_ hS
  have : (ε • (1 : Matrix (Fin n) (Fin n) ℝ)) = Matrix.diagonal fun _ => ε := by
    rw [← Matrix.smul_one_eq_diagonal]
  rw [this]
  exact .diagonal fun _ => hε

theorem isUnit_of_gram {R M : Matrix (Fin n) (Fin n) ℝ} (h : Rᵀ * R = M) (hM : IsUnit M) : IsUnit R := by
  rw [Matrix.isUnit_iff_isUnit_det] at hM ⊢
  rw [← h, det_mul, det_transpose] at hM
  exact isUnit_of_mul_isUnit_left hM

theorem isUnit_smul_posDef {M : Matrix (Fin n) (Fin n) ℝ} (hM : M.PosDef) {s : ℝ} (hs : 0 < s) :
    IsUnit (s ^ 2 • M) := by
  rw [Matrix.isUnit_iff_isUnit_det, det_smul]
  exact (isUnit_iff_ne_zero.2 (pow_ne_zero _ (pow_ne_zero _ hs.ne'))).mul
    ((Matrix.isUnit_iff_isUnit_det _).1 hM.isUnit)

end Verif
