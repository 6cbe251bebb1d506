import Verif.Lemmas.AdaptRun
import Verif.Lemmas.Progress
import Mathlib.Analysis.Real.Sqrt

/-! # Initial proposal factor and the factors of the delayed-rejection stages, exact arithmetic -/

set_option linter.unusedSectionVars false

namespace Verif
open Matrix
variable {n N : ℕ}

/-! ### Default variances -/

theorem pyAbs_fin (t : ℝ) : pyAbs (.fin t : XR) = .fin |t| := by
  unfold pyAbs
  rw [XR.lit_eq, XR.fin_lt, Rat.cast_zero]
  by_cases h : t < 0
  · simp [h, abs_of_neg h]
  · simp [h, abs_of_nonneg (not_lt.1 h)]

theorem defaultVariance_fin (x t : ℝ) :
    defaultVariance (.fin x) (.fin t : XR) = .fin (if x = 0 then 1 else x ^ 2) := by
  unfold defaultVariance
  dsimp only
  rw [XR.fin_mul]
  change (if PyFloat.beq (if (false || false) = true then _ else XR.fin (x * x)) (lit 0) = true then
    lit 1 else if (false || false) = true then _ else XR.fin (x * x)) = _
  simp only [Bool.or_self, Bool.false_eq_true, if_false, XR.lit_eq, XR.fin_beq, Rat.cast_zero,
    Rat.cast_one, decide_eq_true_eq, mul_self_eq_zero]
  split <;> simp [sq]

theorem defaultVariance_unbounded {s : XR} (hs : s = .nan ∨ s = .pinf ∨ s = .ninf) (t : ℝ) :
    defaultVariance s (.fin t) = .fin (if t = 0 then 1 else (t / 20) ^ 2) := by
  have key : ∀ q : XR, (PyFloat.isinf q || PyFloat.isnan q) = true → s * s = q →
      defaultVariance s (.fin t) = .fin (if t = 0 then 1 else (t / 20) ^ 2) := by
    intro q hq e
    unfold defaultVariance
    dsimp only
    rw [e, if_pos hq, pyAbs_fin, XR.lit_eq, XR.fin_mul, XR.fin_mul, XR.lit_eq, XR.fin_beq]
    have h2 : |t| * ((5 / 100 : ℚ) : ℝ) * (|t| * ((5 / 100 : ℚ) : ℝ)) = (t / 20) ^ 2 := by
      push_cast
      calc _ = |t| ^ 2 / 400 := by ring
        _ = _ := by rw [sq_abs]; ring
    rw [h2]
    by_cases ht : t = 0
    · simp [ht]
    · rw [if_neg, if_neg ht]
      simp [ht]
  rcases hs with rfl | rfl | rfl
  · exact key .nan rfl rfl
  · exact key .pinf rfl rfl
  · exact key .pinf rfl rfl

/-! ### The initial factor -/

theorem ixRestrict_ok {F : Type} [PyFloat F] {k : ℕ} {M : Mat F k} {parind : Fin n → Fin N}
    {A : Mat F n} (h : ixRestrict M parind = .ok A) :
    ∀ i j, ∃ hi hj, A i j = M ⟨parind i, hi⟩ ⟨parind j, hj⟩ := by
  unfold ixRestrict at h
  split at h
  · rename_i hk
    cases h
    exact fun i j => ⟨hk i, hk j, rfl⟩
  · cases h

/-- square roots of a diagonal matrix -/
theorem sqrt_diag {q : Fin n → ℝ} (hq : ∀ i, 0 ≤ q i) :
    (fun i j => PyFloat.sqrt (finMx (diagonal q) i j) : Mat XR n) =
      finMx (diagonal fun i => Real.sqrt (q i)) ∧
    (diagonal fun i => Real.sqrt (q i))ᵀ * (diagonal fun i => Real.sqrt (q i)) = diagonal q := by
  refine ⟨?_, ?_⟩
  · funext i j
    unfold finMx finMat
    by_cases h : i = j
    · subst h
      rw [diagonal_apply_eq, diagonal_apply_eq, XR.sqrt_fin (hq i)]
    · rw [diagonal_apply_ne _ h, diagonal_apply_ne _ h, XR.sqrt_fin le_rfl, Real.sqrt_zero]
  · rw [diagonal_transpose, diagonal_mul_diagonal]
    congr 1
    funext i
    exact Real.mul_self_sqrt (hq i)

theorem eq_diagonal_of_le_one (h : n ≤ 1) (A : Matrix (Fin n) (Fin n) ℝ) :
    A = diagonal fun i => A i i := by
  ext i j
  obtain rfl : i = j := by
    apply Fin.ext; have := i.2; have := j.2; omega
  rw [diagonal_apply_eq]

/-- the initial factor, when the initial covariance of the sampled parameters is `Q` -/
theorem setupRMatrix_exact {L : Lapack XR} (hL : ExactLapack L) {q : Qcov XR}
    {parind : Fin n → Fin N} (hinj : Function.Injective parind) {R : Mat XR n}
    {Q : Matrix (Fin n) (Fin n) ℝ} (hQ : Q.PosDef)
    (h : setupRMatrix L q parind = .ok (R, finMx Q)) :
    ∃ r : Matrix (Fin n) (Fin n) ℝ, R = finMx r ∧ rᵀ * r = Q := by
  have hdiag : ∀ v : Fin n → ℝ, Q = diagonal v →
      ∃ r : Matrix (Fin n) (Fin n) ℝ,
        (fun i j => PyFloat.sqrt (finMx Q i j) : Mat XR n) = finMx r ∧ rᵀ = r ∧ rᵀ * r = Q := by
    intro v hv
    have hp : ∀ i, 0 ≤ v i := fun i => by
      have := hQ.diag_pos (i := i)
      rw [hv, diagonal_apply_eq] at this
      exact this.le
    obtain ⟨e1, e2⟩ := sqrt_diag hp
    rw [hv]
    exact ⟨_, e1, diagonal_transpose _, e2⟩
  unfold setupRMatrix at h
  cases q with
  | variances k v =>
    dsimp only at h
    obtain ⟨qc, h1, h⟩ := bind_ok.1 h
    have h := Except.ok.inj h
    rw [Prod.mk.injEq] at h
    obtain ⟨h2, rfl⟩ := h
    obtain ⟨r, e1, _, e2⟩ := hdiag (fun i => Q i i) (by
      ext i j
      by_cases hij : i = j
      · subst hij; rw [diagonal_apply_eq]
      · rw [diagonal_apply_ne _ hij]
        obtain ⟨hi, hj, e⟩ := ixRestrict_ok h1 i j
        unfold diagflat at e
        rw [if_neg (by
          intro e'
          have e' := congrArg Fin.val e'
          exact hij (hinj (Fin.ext e')))] at e
        simpa [finMx, finMat] using e)
    exact ⟨r, by rw [← h2]; exact e1, e2⟩
  | matrix k M =>
    dsimp only at h
    obtain ⟨qc, h1, h⟩ := bind_ok.1 h
    split at h
    · rename_i hk
      have h := Except.ok.inj h
      rw [Prod.mk.injEq] at h
      obtain ⟨h2, rfl⟩ := h
      have hn : n ≤ 1 := by
        by_contra hn
        have a := ixRestrict_ok h1 ⟨0, by omega⟩ ⟨1, by omega⟩
        obtain ⟨hi, hj, _⟩ := a
        have := hinj (Fin.ext (show (parind ⟨0, by omega⟩ : ℕ) = parind ⟨1, by omega⟩ by omega))
        simp at this
      obtain ⟨r, e1, _, e2⟩ := hdiag _ (eq_diagonal_of_le_one hn Q)
      exact ⟨r, by rw [← h2]; exact e1, e2⟩
    · split at h
      · rename_i hn
        have h := Except.ok.inj h
        rw [Prod.mk.injEq] at h
        obtain ⟨h2, rfl⟩ := h
        obtain ⟨r, e1, e3, e2⟩ := hdiag _ (eq_diagonal_of_le_one hn.le Q)
        refine ⟨r, ?_, e2⟩
        rw [← h2, e1, matT_fin, e3]
      · split at h
        · rename_i c hc
          have h := Except.ok.inj h
          rw [Prod.mk.injEq] at h
          obtain ⟨h2, rfl⟩ := h
          obtain ⟨c', e1, e2⟩ := hL.chol_some Q hQ
          rw [hc] at e1
          cases e1
          exact ⟨c'ᵀ, by rw [← h2, matT_fin], by rw [transpose_transpose, e2]⟩
        · cases h

/-! ### Stage factors -/

/-- the entry of the option `drscale` by which the factor of stage `k` is divided to get that of
stage `k+1` (stages counted from zero); the last entry is used again when the list is too short -/
def scaleEntry (ds : List ℝ) (k : ℕ) : ℝ := ds.getD (min k (ds.length - 1)) 1

/-- product of the first `k` scale entries -/
noncomputable def stageScale (ds : List ℝ) (k : ℕ) : ℝ := ∏ j ∈ Finset.range k, scaleEntry ds j

theorem scaleEntry_ne_zero {ds : List ℝ} (h0 : ∀ d ∈ ds, d ≠ 0) (k : ℕ) : scaleEntry ds k ≠ 0 := by
  unfold scaleEntry
  rw [List.getD_eq_getElem?_getD]
  cases h : ds[min k (ds.length - 1)]? with
  | none => simp
  | some d => exact h0 d (List.mem_of_getElem? h)

theorem stageScale_ne_zero {ds : List ℝ} (h0 : ∀ d ∈ ds, d ≠ 0) (k : ℕ) : stageScale ds k ≠ 0 :=
  Finset.prod_ne_zero_iff.2 fun _ _ => scaleEntry_ne_zero h0 _

theorem drscaleAt_fin {ds : List ℝ} {k : ℕ} {s : XR}
    (h : drscaleAt (ds.map .fin) (k + 1) = .ok s) : s = .fin (scaleEntry ds k) := by
  unfold drscaleAt at h
  have h := pyGet_ok.1 h
  rw [List.length_map, show min (k + 1) ds.length - 1 = min k (ds.length - 1) by omega,
    List.getElem?_map] at h
  unfold scaleEntry
  rw [List.getD_eq_getElem?_getD]
  cases h2 : ds[min k (ds.length - 1)]? with
  | none => rw [h2] at h; cases h
  | some d => rw [h2] at h; simpa using h.symm

/-- The factors of all stages and their inverses, first-stage factor `R`. -/
def StageFactors (ds : List ℝ) (ntry : ℕ) (R : Matrix (Fin n) (Fin n) ℝ) (c : CovState XR n) : Prop :=
  ∃ l il, c.RDR = .some l ∧ c.invR = some il ∧ l.length = ntry ∧ il.length = ntry ∧
    ∀ k < ntry, ∃ b : Matrix (Fin n) (Fin n) ℝ,
      l[k]? = some (finMx ((stageScale ds k)⁻¹ • R)) ∧ il[k]? = some (finMx b) ∧
      ((stageScale ds k)⁻¹ • R) * b = 1

/-- lists of factors of the stages `a, a+1, …` -/
def StagesFrom (ds : List ℝ) (a : ℕ) (R : Matrix (Fin n) (Fin n) ℝ) (l il : List (Mat XR n)) : Prop :=
  ∀ k < l.length, ∃ b : Matrix (Fin n) (Fin n) ℝ,
      l[k]? = some (finMx ((stageScale ds (a + k))⁻¹ • R)) ∧ il[k]? = some (finMx b) ∧
      ((stageScale ds (a + k))⁻¹ • R) * b = 1

theorem StagesFrom.cons {ds : List ℝ} {a : ℕ} {R b : Matrix (Fin n) (Fin n) ℝ} {l il : List (Mat XR n)}
    (h1 : ((stageScale ds a)⁻¹ • R) * b = 1) (h2 : StagesFrom ds (a + 1) R l il) :
    StagesFrom ds a R (finMx ((stageScale ds a)⁻¹ • R) :: l) (finMx b :: il) := by
  intro k hk
  cases k with
  | zero => exact ⟨b, rfl, rfl, h1⟩
  | succ k =>
    have := h2 k (by simpa using hk)
    rwa [show a + 1 + k = a + (k + 1) by omega] at this

theorem scale_next {ds : List ℝ} (h0 : ∀ d ∈ ds, d ≠ 0) (a : ℕ) (R : Matrix (Fin n) (Fin n) ℝ) :
    matScale (finMx ((stageScale ds a)⁻¹ • R)) ((lit 1 : XR) / .fin (scaleEntry ds a)) =
      finMx ((stageScale ds (a + 1))⁻¹ • R) := by
  rw [XR.lit_eq, XR.fin_div (scaleEntry_ne_zero h0 a), matScale_fin, smul_smul]
  congr 2
  rw [stageScale, stageScale, Finset.prod_range_succ, mul_inv, Rat.cast_one, one_div, mul_comm]

theorem drFactorLoop_stages {ds : List ℝ} (h0 : ∀ d ∈ ds, d ≠ 0) (R : Matrix (Fin n) (Fin n) ℝ) :
    ∀ {k a : ℕ} {b : Matrix (Fin n) (Fin n) ℝ} {r : List (Mat XR n) × List (Mat XR n)},
      ((stageScale ds a)⁻¹ • R) * b = 1 →
      drFactorLoop (ds.map .fin) k (a + 1) (finMx ((stageScale ds a)⁻¹ • R)) (finMx b) = .ok r →
      StagesFrom ds (a + 1) R r.1 r.2
  | 0, a, b, r, _, h => by
    cases h
    intro k hk
    simp at hk
  | k + 1, a, b, r, hb, h => by
    unfold drFactorLoop at h
    obtain ⟨s, hs, h⟩ := bind_ok.1 h
    obtain ⟨⟨l, il⟩, h1, h⟩ := bind_ok.1 h
    cases h
    rw [drscaleAt_fin hs] at h1 ⊢
    have hne := scaleEntry_ne_zero h0 a
    have hb' : ((stageScale ds (a + 1))⁻¹ • R) * (scaleEntry ds a • b) = 1 := by
      rw [← hb, stageScale, stageScale, Finset.prod_range_succ, mul_inv, Matrix.smul_mul,
        Matrix.smul_mul, Matrix.mul_smul, smul_smul]
      congr 1
      field_simp
    rw [scale_next h0, matScale_fin] at h1
    dsimp only
    rw [scale_next h0, matScale_fin]
    exact StagesFrom.cons hb' (drFactorLoop_stages h0 R hb' h1)

theorem rdrSetupLoop_stages {L : Lapack XR} (hL : ExactLapack L) {ds : List ℝ}
    (h0 : ∀ d ∈ ds, d ≠ 0) (R : Matrix (Fin n) (Fin n) ℝ) :
    ∀ {k a : ℕ} {r : List (Mat XR n) × List (Mat XR n)},
      rdrSetupLoop L (ds.map .fin) k (a + 1) (finMx ((stageScale ds a)⁻¹ • R)) = .ok r →
      StagesFrom ds (a + 1) R r.1 r.2
  | 0, a, r, h => by
    cases h
    intro k hk
    simp at hk
  | k + 1, a, r, h => by
    unfold rdrSetupLoop at h
    obtain ⟨s, hs, h⟩ := bind_ok.1 h
    obtain ⟨iR, h2, h⟩ := bind_ok.1 h
    obtain ⟨⟨l, il⟩, h1, h⟩ := bind_ok.1 h
    cases h
    rw [drscaleAt_fin hs] at h1 h2 ⊢
    rw [scale_next h0] at h1 h2
    dsimp only
    rw [scale_next h0]
    have h2 := orRaise_ok.1 h2
    by_cases hu : IsUnit ((stageScale ds (a + 1))⁻¹ • R)
    · obtain ⟨b, e1, e2⟩ := hL.inv_some _ hu
      rw [h2] at e1
      cases e1
      exact StagesFrom.cons e2 (rdrSetupLoop_stages hL h0 R h1)
    · rw [hL.inv_none _ hu] at h2
      cases h2

end Verif
