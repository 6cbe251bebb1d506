import Verif.Lemmas.AdaptiveMove
import Verif.Lemmas.FactorsXR
import Verif.Props.Covariance
import Verif.Spec.Cholesky

/-! # The transition for a given proposal factor, and the factor for the next iteration

Both as measurable functions: the transition of the factor, the row and the generator state; the
factor of the history of rows and factors. -/

namespace Verif
open MeasureTheory Function Matrix
open scoped ENNReal

section transition
variable {n : ℕ} {σ : Type} [MeasurableSpace σ] {μ : Measure σ} {G : Rng σ XR}

/-- factor of stage `k` when the first factor is `R` -/
noncomputable def stageFactor (ds : List ℝ) (ntry : ℤ) (R : Fin n → Fin n → ℝ) (k : ℕ) : Fin n → Fin n → ℝ :=
  fun i j => (if 1 < ntry then (stageScale ds k)⁻¹ else 1) * R i j

/-- its inverse -/
noncomputable def stageInverse (ds : List ℝ) (ntry : ℤ) (R : Fin n → Fin n → ℝ) (k : ℕ) : Fin n → Fin n → ℝ :=
  fun i j => (Matrix.of (stageFactor ds ntry R k))⁻¹ i j

theorem of_stageFactor (ds : List ℝ) (ntry : ℤ) (R : Matrix (Fin n) (Fin n) ℝ) (k : ℕ) :
    Matrix.of (stageFactor ds ntry R k) = (if 1 < ntry then (stageScale ds k)⁻¹ else 1) • R := by
  ext i j
  simp [stageFactor]

theorem continuous_matrix_of : Continuous fun A : Fin n → Fin n → ℝ => Matrix.of A :=
  continuous_matrix fun i j => (continuous_apply j).comp (continuous_apply i)

theorem measurable_matrix_det : Measurable fun A : Fin n → Fin n → ℝ => (Matrix.of A).det :=
  (continuous_matrix_of (n := n)).matrix_det.measurable

theorem measurable_matrix_inv : Measurable fun A : Fin n → Fin n → ℝ => fun i j => (Matrix.of A)⁻¹ i j := by
  refine measurable_pi_iff.2 fun i => measurable_pi_iff.2 fun j => ?_
  have h : Continuous fun A : Fin n → Fin n → ℝ => (Matrix.of A).adjugate :=
    continuous_matrix_of.matrix_adjugate
  have h' : Measurable fun A : Fin n → Fin n → ℝ => (Matrix.of A).adjugate i j := (h.matrix_elem i j).measurable
  simp only [Matrix.inv_def, Matrix.smul_apply, smul_eq_mul, Ring.inverse_eq_inv']
  exact measurable_matrix_det.inv.mul h'

theorem measurable_stageFactor (ds : List ℝ) (ntry : ℤ) :
    Measurable fun R : Fin n → Fin n → ℝ => stageFactor ds ntry R := by
  refine measurable_pi_iff.2 fun k => measurable_pi_iff.2 fun i => measurable_pi_iff.2 fun j => ?_
  exact measurable_const.mul ((measurable_pi_apply j).comp (measurable_pi_apply i))

theorem measurable_stageInverse (ds : List ℝ) (ntry : ℤ) :
    Measurable fun R : Fin n → Fin n → ℝ => stageInverse ds ntry R := by
  refine measurable_pi_iff.2 fun k => ?_
  exact measurable_matrix_inv.comp ((measurable_pi_apply k).comp (measurable_stageFactor ds ntry))

theorem stageFactor_inverse {ds : List ℝ} (h0 : ∀ d ∈ ds, d ≠ 0) (ntry : ℤ) {R : Fin n → Fin n → ℝ}
    (hR : (Matrix.of R).det ≠ 0) (k : ℕ) :
    Matrix.of (stageFactor ds ntry R k) * Matrix.of (stageInverse ds ntry R k) = 1 := by
  change Matrix.of (stageFactor ds ntry R k) * (Matrix.of (stageFactor ds ntry R k))⁻¹ = 1
  refine Matrix.mul_nonsing_inv _ (isUnit_iff_ne_zero.2 ?_)
  have e : Matrix.of (stageFactor ds ntry R k) =
      (if 1 < ntry then (stageScale ds k)⁻¹ else 1) • Matrix.of R := of_stageFactor ds ntry (Matrix.of R) k
  rw [e, Matrix.det_smul]
  refine mul_ne_zero (pow_ne_zero _ ?_) hR
  split
  · exact inv_ne_zero (stageScale_ne_zero h0 k)
  · exact one_ne_zero

variable (D : IdealRng G n μ)

open Classical in
/-- an iteration with proposal factor `R` from a row and a generator state -/
noncomputable def factorMove (lp : (Fin n → ℝ) → Option ℝ) (ds : List ℝ) (ntry : ℤ) (R : Fin n → Fin n → ℝ)
    (p : (Fin n → ℝ) × σ) : (Fin n → ℝ) × σ :=
  if (Matrix.of R).det = 0 then p else
    moveFrom D (fun k => Matrix.of (stageFactor ds ntry R k)) (stageInverse ds ntry R) lp
      (max 1 ntry.toNat) 0 (fun _ => p.1) p.2

variable {lp : (Fin n → ℝ) → Option ℝ}

theorem factorMove_of_unit (ds : List ℝ) (ntry : ℤ) {R : Fin n → Fin n → ℝ} (hR : (Matrix.of R).det ≠ 0) :
    factorMove D lp ds ntry R = fun p : (Fin n → ℝ) × σ =>
      moveFrom D (fun k => Matrix.of (stageFactor ds ntry R k)) (stageInverse ds ntry R) lp
        (max 1 ntry.toNat) 0 (fun _ => p.1) p.2 :=
  funext fun _ => if_neg hR

theorem measurable_factorMove (hd : Measurable fun x => (pointAt lp x).density) (ds : List ℝ) (ntry : ℤ) :
    Measurable fun p : (Fin n → Fin n → ℝ) × (Fin n → ℝ) × σ => factorMove D lp ds ntry p.1 p.2 := by
  refine Measurable.ite ?_ measurable_snd ?_
  · exact (measurable_matrix_det.comp measurable_fst) (measurableSet_singleton 0)
  · have h := measurable_moveFrom_factor D hd (measurable_stageFactor (n := n) ds ntry)
      (measurable_stageInverse ds ntry) (max 1 ntry.toNat) 0
    exact h.comp ((measurable_fst.prodMk (measurable_pi_iff.2 fun _ =>
      measurable_fst.comp measurable_snd)).prodMk (measurable_snd.comp measurable_snd))

variable [IsProbabilityMeasure μ]

theorem fresh_factorMove (hd : Measurable fun x => (pointAt lp x).density) {ds : List ℝ}
    (h0 : ∀ d ∈ ds, d ≠ 0) (ntry : ℤ) (R : Fin n → Fin n → ℝ) : Fresh μ (factorMove D lp ds ntry R) := by
  by_cases hR : (Matrix.of R).det = 0
  · rw [show factorMove D lp ds ntry R = id from funext fun _ => if_pos hR]
    exact Fresh.id
  · rw [factorMove_of_unit D ds ntry hR]
    exact fresh_moveFrom D hd fun k _ => stageFactor_inverse h0 ntry hR k

theorem factorMove_invariant (hd : Measurable fun x => (pointAt lp x).density) {ds : List ℝ}
    (h0 : ∀ d ∈ ds, d ≠ 0) (ntry : ℤ) (R : Fin n → Fin n → ℝ) :
    MeasurePreserving (factorMove D lp ds ntry R)
      ((volume.withDensity fun x => ENNReal.ofReal (pointAt lp x).density).prod μ)
      ((volume.withDensity fun x => ENNReal.ofReal (pointAt lp x).density).prod μ) := by
  by_cases hR : (Matrix.of R).det = 0
  · rw [show factorMove D lp ds ntry R = id from funext fun _ => if_pos hR]
    exact MeasurePreserving.id _
  · rw [factorMove_of_unit D ds ntry hR]
    exact moveFrom_invariant D hd fun k _ => stageFactor_inverse h0 ntry hR k

end transition

section update
variable {n : ℕ}

open Classical in
/-- the factor returned by the Cholesky routine -/
noncomputable def cholOf {L : Lapack XR} (hL : TriangularFactor L n) (A : Fin n → Fin n → ℝ) : Fin n → Fin n → ℝ :=
  if h : (Matrix.of A).PosDef then fun i j => (hL _ h).choose i j else 0

theorem measurable_cholOf {L : Lapack XR} (hL : TriangularFactor L n) : Measurable (cholOf hL) := by
  refine measurable_cholesky (fun A hA => ?_) fun A hA => dif_neg hA
  obtain ⟨-, h1, h2⟩ := (hL _ hA).choose_spec
  rw [show Matrix.of (cholOf hL A) = (hL _ hA).choose by
    unfold cholOf; rw [dif_pos hA]; rfl]
  exact ⟨h1, h2⟩

open Classical in
/-- the factor after an adaptation to the covariance `M`, with adjustment `ε` and scale `s` -/
noncomputable def updatedFactor {L : Lapack XR} (hL : TriangularFactor L n) (ε s : ℝ)
    (M R : Fin n → Fin n → ℝ) : Fin n → Fin n → ℝ :=
  if (Matrix.of M).PosDef then fun i j => s * cholOf hL M j i
  else if (Matrix.of (fun i j => (Matrix.of M + ε • 1) i j)).PosDef then
    fun i j => s * cholOf hL (fun i j => (Matrix.of M + ε • (1 : Matrix (Fin n) (Fin n) ℝ)) i j) j i
  else R

theorem measurable_updatedFactor {L : Lapack XR} (hL : TriangularFactor L n) (ε s : ℝ) :
    Measurable fun p : (Fin n → Fin n → ℝ) × (Fin n → Fin n → ℝ) => updatedFactor hL ε s p.1 p.2 := by
  have ht : Measurable fun c : Fin n → Fin n → ℝ => fun i j => s * c j i :=
    measurable_pi_iff.2 fun i => measurable_pi_iff.2 fun j =>
      measurable_const.mul ((measurable_pi_apply i).comp (measurable_pi_apply j))
  have ha : Measurable fun M : Fin n → Fin n → ℝ => fun i j =>
      (Matrix.of M + ε • (1 : Matrix (Fin n) (Fin n) ℝ)) i j := by
    refine measurable_pi_iff.2 fun i => measurable_pi_iff.2 fun j => ?_
    have h1 : Measurable fun M : Fin n → Fin n → ℝ => M i j :=
      (measurable_pi_apply j).comp (measurable_pi_apply i)
    exact h1.add_const _
  refine Measurable.ite (measurable_fst measurableSet_posDef) ?_ (Measurable.ite ?_ ?_ measurable_snd)
  · exact ht.comp ((measurable_cholOf hL).comp measurable_fst)
  · exact (ha.comp measurable_fst) measurableSet_posDef
  · exact ht.comp ((measurable_cholOf hL).comp (ha.comp measurable_fst))

/-- the code computes it -/
theorem checkForSingular_updated {L : Lapack XR} (hL : TriangularFactor L n) (hx : ExactLapack L)
    {M : Matrix (Fin n) (Fin n) ℝ} (hM : M.IsSymm) (R : Matrix (Fin n) (Fin n) ℝ) (ε s : ℝ) :
    checkForSingular L (finMx M) (finMx R) (.fin ε) (.fin s) = finMx (Matrix.of (updatedFactor hL ε s M R)) := by
  have hchol : ∀ A : Matrix (Fin n) (Fin n) ℝ, A.PosDef → L.cholesky (finMx A) = some (finMx (Matrix.of (cholOf hL A))) := by
    intro A hA
    have h1 := (hL _ hA).choose_spec.1
    rw [h1]
    congr 2
    unfold cholOf
    rw [dif_pos (show (Matrix.of A).PosDef from hA)]
    rfl
  have htmp : matAdd (finMx M) (matScale matEye (.fin ε)) = finMx (M + ε • 1) := by
    rw [matEye_fin, matScale_fin, matAdd_fin]
  have hsymm : (M + ε • 1).IsSymm := by
    rw [Matrix.IsSymm, transpose_add, transpose_smul, transpose_one, hM]
  unfold checkForSingular isSemiPosDefChol adjustCovMatrix scaleCholesky isSemiPosDefChol
  dsimp only
  rw [htmp]
  by_cases h : M.PosDef
  · rw [hchol M h]
    simp only [Option.map_some]
    rw [matT_fin, matScale_fin]
    congr 1
    unfold updatedFactor
    rw [if_pos (show (Matrix.of M).PosDef from h)]
    ext i j
    simp
  · rw [hx.chol_none M hM h]
    simp only [Option.map_none]
    by_cases h' : (M + ε • 1).PosDef
    · rw [hchol _ h']
      simp only [Option.map_some]
      rw [matT_fin, matScale_fin]
      congr 1
      rw [show updatedFactor hL ε s M R = _ from (if_neg h).trans (if_pos h')]
      ext i j
      simp only [Matrix.smul_apply, Matrix.transpose_apply, smul_eq_mul, Matrix.of_apply]
      rfl
    · rw [hx.chol_none _ hsymm h']
      simp only [Option.map_none]
      rw [show updatedFactor hL ε s M R = _ from (if_neg h).trans (if_neg h')]
      rfl

/-- The factor for iteration `j + 1` from the rows and factors up to `j`: unchanged unless an adaptation
is due at `j + 1`, else the updated one. -/
noncomputable def nextFactor {L : Lapack XR} (hL : TriangularFactor L n) (adaptint : ℤ) (fixed : Fin n → Bool)
    (Q : Matrix (Fin n) (Fin n) ℝ) (ε s : ℝ) (j : ℕ) (h : ℕ → (Fin n → ℝ) × (Fin n → Fin n → ℝ)) :
    Fin n → Fin n → ℝ :=
  if 0 < adaptint ∧ adaptint ∣ ((j + 1 : ℕ) : ℤ) then
    updatedFactor hL ε s (fun a b => mixedCov fixed Q
      (sampleCovM ((List.range (j + 1)).map fun i => (h i).1)) a b) (h j).2
  else (h j).2

theorem measurable_list_sum {Y : Type} [MeasurableSpace Y] {l : List ℕ} {f : ℕ → Y → ℝ}
    (hf : ∀ i, Measurable (f i)) : Measurable fun y => (l.map fun i => f i y).sum := by
  induction l with
  | nil => simp
  | cons a l ih =>
    simp only [List.map_cons, List.sum_cons]
    exact (hf a).add ih

theorem measurable_sampleCov (l : List ℕ) (a b : Fin n) :
    Measurable fun h : ℕ → (Fin n → ℝ) × (Fin n → Fin n → ℝ) => sampleCov (l.map fun i => (h i).1) a b := by
  have hrow : ∀ i a, Measurable fun h : ℕ → (Fin n → ℝ) × (Fin n → Fin n → ℝ) => (h i).1 a := fun i a =>
    (measurable_pi_apply a).comp (measurable_fst.comp (measurable_pi_apply i))
  have hmean : ∀ a, Measurable fun h : ℕ → (Fin n → ℝ) × (Fin n → Fin n → ℝ) =>
      sampleMean (l.map fun i => (h i).1) a := by
    intro a
    unfold sampleMean
    simp only [List.map_map, List.length_map]
    exact (measurable_list_sum (f := fun i (h : ℕ → (Fin n → ℝ) × (Fin n → Fin n → ℝ)) => (h i).1 a)
      fun i => hrow i a).div_const _
  unfold sampleCov
  simp only [List.map_map, List.length_map]
  exact (measurable_list_sum (f := fun i (h : ℕ → (Fin n → ℝ) × (Fin n → Fin n → ℝ)) =>
    ((h i).1 a - sampleMean (l.map fun i => (h i).1) a) * ((h i).1 b - sampleMean (l.map fun i => (h i).1) b))
      fun i => ((hrow i a).sub (hmean a)).mul ((hrow i b).sub (hmean b))).div_const _

theorem measurable_nextFactor {L : Lapack XR} (hL : TriangularFactor L n) (adaptint : ℤ) (fixed : Fin n → Bool)
    (Q : Matrix (Fin n) (Fin n) ℝ) (ε s : ℝ) (j : ℕ) : Measurable (nextFactor hL adaptint fixed Q ε s j) := by
  unfold nextFactor
  by_cases hj : 0 < adaptint ∧ adaptint ∣ ((j + 1 : ℕ) : ℤ)
  · simp only [if_pos hj]
    refine (measurable_updatedFactor hL ε s).comp (Measurable.prodMk ?_
      (measurable_snd.comp (measurable_pi_apply j)))
    refine measurable_pi_iff.2 fun a => measurable_pi_iff.2 fun b => ?_
    by_cases h : fixed a = true ∨ fixed b = true
    · simp only [mixedCov, Matrix.of_apply, if_pos h]
      exact measurable_const
    · simp only [mixedCov, Matrix.of_apply, if_neg h, sampleCovM]
      exact measurable_sampleCov _ a b
  · simp only [if_neg hj]
    exact measurable_snd.comp (measurable_pi_apply j)

end update

end Verif
