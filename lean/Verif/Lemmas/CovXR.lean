import Verif.Lemmas.XR
import Verif.Lemmas.Basic
import Verif.Spec.Stats
import Mathlib.Tactic.FieldSimp
import Mathlib.Tactic.LinearCombination
import Mathlib.Tactic.Ring

/-! # The covariance recursion on finite values -/

namespace Verif
set_option linter.unusedSectionVars false
open XR
variable {n : ℕ}

theorem rowsOf_length (l : List ((Fin n → ℝ) × ℝ)) : (rowsOf l).length = l.length := by simp [rowsOf]
theorem weightsOf_length (l : List ((Fin n → ℝ) × ℝ)) : (weightsOf l).length = l.length := by
  simp [weightsOf]

theorem setupW_self (l : List ((Fin n → ℝ) × ℝ)) :
    setupW (some (weightsOf l)) (rowsOf l).length = weightsOf l := by
  unfold setupW
  match l with
  | [] => rfl
  | [p] => simp [weightsOf, rowsOf]
  | p :: q :: l => simp [weightsOf]

theorem zip_rows (l : List ((Fin n → ℝ) × ℝ)) :
    (rowsOf l).zip (weightsOf l) = l.map fun p => (finVec p.1, XR.fin p.2) := by
  induction l with
  | nil => rfl
  | cons p l ih => simpa [rowsOf, weightsOf] using ih

theorem zipWith_rows (g : Vec XR n → XR → XR) (h : (Fin n → ℝ) → ℝ → ℝ)
    (hg : ∀ x w, g (finVec x) (.fin w) = .fin (h x w)) (l : List ((Fin n → ℝ) × ℝ)) :
    lsum (List.zipWith g (rowsOf l) (weightsOf l)) = .fin (l.map fun p => h p.1 p.2).sum := by
  have : List.zipWith g (rowsOf l) (weightsOf l) = (l.map fun p => h p.1 p.2).map XR.fin := by
    induction l with
    | nil => rfl
    | cons p l ih => simpa [rowsOf, weightsOf, hg] using ih
  rw [this, lsum_fin]

/-- one round on real numbers -/
noncomputable def covStepR (acc : (Fin n → Fin n → ℝ) × (Fin n → ℝ) × ℝ) (p : (Fin n → ℝ) × ℝ) :
    (Fin n → Fin n → ℝ) × (Fin n → ℝ) × ℝ :=
  (fun i j => (acc.2.2 - 1) / (p.2 + acc.2.2 - 1) * acc.1 i j +
      p.2 * acc.2.2 / (p.2 + acc.2.2 - 1) / (p.2 + acc.2.2) *
        ((p.1 i - acc.2.1 i) * (p.1 j - acc.2.1 j)),
    fun i => acc.2.1 i + p.2 / (p.2 + acc.2.2) * (p.1 i - acc.2.1 i), p.2 + acc.2.2)

/-- a state of the recursion with finite values -/
def finCov (a : (Fin n → Fin n → ℝ) × (Fin n → ℝ) × ℝ) : Mat XR n × Vec XR n × XR :=
  (finMat a.1, finVec a.2.1, .fin a.2.2)

theorem covStep_fin (a : (Fin n → Fin n → ℝ) × (Fin n → ℝ) × ℝ) (p : (Fin n → ℝ) × ℝ)
    (h0 : p.2 + a.2.2 ≠ 0) (h1 : p.2 + a.2.2 ≠ 1) :
    covStep (finCov a) (finVec p.1, .fin p.2) = finCov (covStepR a p) := by
  have h1' : p.2 + a.2.2 - 1 ≠ 0 := sub_ne_zero.2 h1
  unfold covStep finCov
  dsimp only
  simp only [lit_eq, Rat.cast_one, fin_add, fin_sub, fin_mul, fin_div h0, fin_div h1', finVec, finMat]
  refine Prod.ext ?_ (Prod.ext ?_ rfl)
  · funext i j
    simp only [covStepR, finMat]
    congr 1
    ring
  · funext i
    simp only [covStepR, finVec]
    congr 1
    ring

/-- the running weights after the prior weight `w0` stay positive and avoid one -/
def GoodWeights (w0 : ℝ) : List ((Fin n → ℝ) × ℝ) → Prop
  | [] => True
  | p :: l => p.2 + w0 ≠ 0 ∧ p.2 + w0 ≠ 1 ∧ GoodWeights (p.2 + w0) l

theorem goodWeights_of_one_le {w0 : ℝ} (h : 1 ≤ w0) (l : List ((Fin n → ℝ) × ℝ))
    (hl : ∀ p ∈ l, 0 < p.2) : GoodWeights w0 l := by
  induction l generalizing w0 with
  | nil => trivial
  | cons p l ih =>
    have := hl p (by simp)
    exact ⟨by linarith, by linarith, ih (by linarith) fun q hq => hl q (by simp [hq])⟩

theorem foldl_covStep_fin (l : List ((Fin n → ℝ) × ℝ)) :
    ∀ a : (Fin n → Fin n → ℝ) × (Fin n → ℝ) × ℝ, GoodWeights a.2.2 l →
    ((rowsOf l).zip (weightsOf l)).foldl covStep (finCov a) = finCov (l.foldl covStepR a) := by
  rw [zip_rows]
  induction l with
  | nil => intro a _; rfl
  | cons p l ih =>
    intro a h
    rw [List.map_cons, List.foldl_cons, List.foldl_cons, covStep_fin a p h.1 h.2.1]
    exact ih _ h.2.2

/-- the moments that the recursion keeps -/
theorem foldl_covStepR (l : List ((Fin n → ℝ) × ℝ)) :
    ∀ a : (Fin n → Fin n → ℝ) × (Fin n → ℝ) × ℝ, GoodWeights a.2.2 l →
    (l.foldl covStepR a).2.2 = a.2.2 + wSum l ∧
    (∀ i, (l.foldl covStepR a).2.1 i * (l.foldl covStepR a).2.2 =
      a.2.2 * a.2.1 i + (l.map fun p => p.2 * p.1 i).sum) ∧
    ∀ i j, ((l.foldl covStepR a).2.2 - 1) * (l.foldl covStepR a).1 i j +
        (l.foldl covStepR a).2.2 * ((l.foldl covStepR a).2.1 i * (l.foldl covStepR a).2.1 j) =
      (a.2.2 - 1) * a.1 i j + a.2.2 * (a.2.1 i * a.2.1 j) +
        (l.map fun p => p.2 * (p.1 i * p.1 j)).sum := by
  induction l with
  | nil => intro a _; simp [wSum]; intro i; ring
  | cons p l ih =>
    intro a h
    obtain ⟨h0, h1, h2⟩ := h
    obtain ⟨e1, e2, e3⟩ := ih (covStepR a p) h2
    have h1' : p.2 + a.2.2 - 1 ≠ 0 := sub_ne_zero.2 h1
    have c1 : (covStepR a p).2.2 = p.2 + a.2.2 := rfl
    have c2 : ∀ i, (covStepR a p).2.1 i = a.2.1 i + p.2 / (p.2 + a.2.2) * (p.1 i - a.2.1 i) := fun i => rfl
    have c3 : ∀ i j, (covStepR a p).1 i j = (a.2.2 - 1) / (p.2 + a.2.2 - 1) * a.1 i j +
      p.2 * a.2.2 / (p.2 + a.2.2 - 1) / (p.2 + a.2.2) *
        ((p.1 i - a.2.1 i) * (p.1 j - a.2.1 j)) := fun i j => rfl
    simp only [List.foldl_cons, List.map_cons, List.sum_cons]
    refine ⟨?_, fun i => ?_, fun i j => ?_⟩
    · rw [e1, c1]; simp [wSum]; ring
    · rw [e2, c1, c2]; field_simp; ring
    · rw [e3, c1, c2, c2, c3]; field_simp; ring

theorem wScatter_expand (c : Fin n → ℝ) (l : List ((Fin n → ℝ) × ℝ)) (i j : Fin n) :
    wScatter c l i j = (l.map fun p => p.2 * (p.1 i * p.1 j)).sum
      - c i * (l.map fun p => p.2 * p.1 j).sum - c j * (l.map fun p => p.2 * p.1 i).sum
      + wSum l * (c i * c j) := by
  unfold wScatter wSum
  induction l with
  | nil => simp
  | cons p l ih =>
    simp only [List.map_cons, List.sum_cons]
    rw [ih]; ring

theorem wMean_mul {l : List ((Fin n → ℝ) × ℝ)} (h : wSum l ≠ 0) (i : Fin n) :
    (l.map fun p => p.2 * p.1 i).sum = wMean l i * wSum l := by
  unfold wMean; field_simp

theorem wScatter_mean {l : List ((Fin n → ℝ) × ℝ)} (h : wSum l ≠ 0) (i j : Fin n) :
    wScatter (wMean l) l i j = (l.map fun p => p.2 * (p.1 i * p.1 j)).sum
      - wSum l * (wMean l i * wMean l j) := by
  rw [wScatter_expand, wMean_mul h, wMean_mul h]; ring

theorem wSum_append (l l' : List ((Fin n → ℝ) × ℝ)) : wSum (l ++ l') = wSum l + wSum l' := by
  simp [wSum]

theorem wSum_pos {l : List ((Fin n → ℝ) × ℝ)} (h : l ≠ []) (hl : ∀ p ∈ l, 0 < p.2) : 0 < wSum l := by
  match l, h with
  | p :: l, _ =>
    have h1 := hl p (by simp)
    have h2 : 0 ≤ wSum l := by
      unfold wSum
      exact List.sum_nonneg fun x hx => by
        obtain ⟨q, hq, rfl⟩ := List.mem_map.1 hx
        exact (hl q (by simp [hq])).le
    have : wSum (p :: l) = p.2 + wSum l := by simp [wSum]
    rw [this]; linarith

/-- what the first update computes -/
theorem initializeCov_fin (l : List ((Fin n → ℝ) × ℝ)) (h0 : wSum l ≠ 0) :
    initializeCov (rowsOf l) (weightsOf l) =
      finCov (if 1 < wSum l then wCov l else fun _ _ => 0, wMean l, wSum l) := by
  have hw : lsum (weightsOf l) = .fin (wSum l) := by
    unfold weightsOf wSum
    rw [show (l.map fun p => XR.fin p.2) = (l.map Prod.snd).map XR.fin by simp, lsum_fin]
  have hmean : (fun i => wColSum (rowsOf l) (weightsOf l) i * (lit 1 / XR.fin (wSum l))) =
      finVec (wMean l) := by
    funext i
    unfold wColSum
    rw [zipWith_rows (h := fun x w => x i * w) (hg := fun x w => by simp [finVec])]
    simp only [lit_eq, Rat.cast_one, fin_div h0, fin_mul, finVec, fin_inj, wMean]
    rw [mul_one_div]
    congr 2
    exact List.map_congr_left fun p _ => mul_comm _ _
  unfold initializeCov
  dsimp only
  rw [hw, hmean]
  unfold finCov
  refine Prod.ext ?_ rfl
  dsimp only
  by_cases h1 : 1 < wSum l
  · have h1' : wSum l - 1 ≠ 0 := by linarith
    have hentry : ∀ i j, lsum (List.zipWith (fun xi wi => (xi i - finVec (wMean l) i) *
        (((xi j - finVec (wMean l) j) * wi) * (lit 1 / (XR.fin (wSum l) - lit 1))))
        (rowsOf l) (weightsOf l)) = .fin (wCov l i j) := by
      intro i j
      rw [zipWith_rows (h := fun x w => (x i - wMean l i) * (((x j - wMean l j) * w) * (1 / (wSum l - 1))))
        (hg := fun x w => by
          simp only [lit_eq, Rat.cast_one, finVec, fin_sub, fin_mul, fin_div h1'])]
      congr 1
      unfold wCov wScatter
      simp only [div_eq_mul_inv]
      rw [← List.sum_map_mul_right]
      congr 1
      exact List.map_congr_left fun p _ => by ring
    rw [if_pos (by simpa using h1), if_pos h1]
    funext i j
    have hmean' := fun i => congrFun hmean i
    simp only [hmean', hentry]
    by_cases hij : j ≤ i
    · simp only [if_pos hij, finMat]
    · simp only [if_neg hij, finMat, fin_inj]
      unfold wCov wScatter
      congr 2
      exact List.map_congr_left fun p _ => by ring
  · rw [if_neg (by simpa using h1), if_neg h1]
    funext i j
    simp [finMat]

theorem update_none (l : List ((Fin n → ℝ) × ℝ)) (hn : 0 < n) (hl : l ≠ []) (h0 : wSum l ≠ 0)
    (m0 : Option (Vec XR n)) (w0 : Option XR) :
    updateCovarianceMeanSum (rowsOf l) (some (weightsOf l)) none m0 w0 =
      .ok (some (finMat (if 1 < wSum l then wCov l else fun _ _ => 0)),
        some (finVec (wMean l)), some (.fin (wSum l))) := by
  unfold updateCovarianceMeanSum
  have : (rowsOf l).length ≠ 0 := by
    rw [rowsOf_length]; exact fun h => hl (List.length_eq_zero_iff.1 h)
  rw [if_neg (by omega), setupW_self]
  dsimp only
  rw [if_pos (by rw [rowsOf_length, weightsOf_length]), initializeCov_fin l h0]
  rfl

theorem update_some (l : List ((Fin n → ℝ) × ℝ)) (hn : 0 < n)
    (a : (Fin n → Fin n → ℝ) × (Fin n → ℝ) × ℝ) (hw : GoodWeights a.2.2 l) :
    updateCovarianceMeanSum (rowsOf l) (some (weightsOf l)) (some (finMat a.1)) (some (finVec a.2.1))
        (some (.fin a.2.2)) =
      .ok (some (finMat (l.foldl covStepR a).1), some (finVec (l.foldl covStepR a).2.1),
        some (.fin (l.foldl covStepR a).2.2)) := by
  unfold updateCovarianceMeanSum
  by_cases hl : l = []
  · subst hl; simp [rowsOf]
  · have : (rowsOf l).length ≠ 0 := by
      rw [rowsOf_length]; exact fun h => hl (List.length_eq_zero_iff.1 h)
    rw [if_neg (by omega), setupW_self]
    dsimp only
    rw [if_pos (by rw [rowsOf_length, weightsOf_length])]
    have := foldl_covStep_fin l a hw
    unfold finCov at this
    rw [this]

/-! ### Unit weights -/

theorem updateCov_weights_congr {F : Type} [PyFloat F] (x : List (Vec F n)) {w w' : Option (List F)}
    (h : setupW w x.length = setupW w' x.length) (c : Option (Mat F n)) (mu : Option (Vec F n))
    (s : Option F) : updateCovarianceMeanSum x w c mu s = updateCovarianceMeanSum x w' c mu s := by
  unfold updateCovarianceMeanSum
  rw [h]

/-- a sample with unit weights -/
def ones (rows : List (Fin n → ℝ)) : List ((Fin n → ℝ) × ℝ) := rows.map fun r => (r, 1)

theorem rowsOf_ones (rows : List (Fin n → ℝ)) : rowsOf (ones rows) = rows.map finVec := by
  simp [rowsOf, ones]

theorem wSum_ones (rows : List (Fin n → ℝ)) : wSum (ones rows) = rows.length := by
  simp [wSum, ones, Function.comp_def]

theorem wMean_ones (rows : List (Fin n → ℝ)) : wMean (ones rows) = sampleMean rows := by
  funext i
  unfold wMean
  rw [wSum_ones]
  simp [sampleMean, ones, Function.comp_def]

theorem wCov_ones (rows : List (Fin n → ℝ)) : wCov (ones rows) = sampleCov rows := by
  funext i j
  simp [wCov, sampleCov, wScatter, wMean_ones, wSum_ones]
  simp [ones, Function.comp_def]

theorem update_unit (rows : List (Fin n → ℝ)) (c : Option (Mat XR n)) (mu : Option (Vec XR n))
    (s : Option XR) :
    updateCovarianceMeanSum (rows.map finVec) (some [lit 1]) c mu s =
      updateCovarianceMeanSum (rowsOf (ones rows)) (some (weightsOf (ones rows))) c mu s := by
  rw [rowsOf_ones]
  apply updateCov_weights_congr
  have h := setupW_self (ones rows)
  rw [rowsOf_ones] at h
  rw [h]
  simp [setupW, weightsOf, ones, Function.comp_def, List.map_const']

/-- zero matrix for a single row, the sample covariance otherwise: both are `sampleCov` -/
theorem cov_single {rows : List (Fin n → ℝ)} (h : rows ≠ []) :
    (if 1 < wSum (ones rows) then wCov (ones rows) else fun _ _ => 0) = sampleCov rows := by
  split
  · exact wCov_ones rows
  · rename_i h1
    rw [wSum_ones] at h1
    match rows, h with
    | [r], _ => funext i j; simp [sampleCov]
    | a :: b :: l, _ =>
      exfalso; apply h1
      simp only [List.length_cons]; push_cast; have := Nat.cast_nonneg (α := ℝ) l.length; linarith

end Verif
