import Verif.Model.DefaultFuns
import Verif.Lemmas.XR
import Verif.Lemmas.Basic
import Mathlib.Tactic.Ring
import Mathlib.Tactic.NormNum
import Mathlib.Tactic.Linarith
import Mathlib.Tactic.FieldSimp
import Mathlib.Tactic.Positivity
import Mathlib.Tactic.GCongr
import Mathlib.Tactic.FinCases
import Mathlib.Tactic.IntervalCases
import Mathlib.Tactic.LinearCombination

/-! # C58, C59: the default prior and the default sum of squares -/

namespace Verif
set_option linter.unusedSectionVars false

open XR

/-! ### C58: default prior -/

/-- a prior standard deviation given by the user that restricts the parameter: finite, positive -/
def Restricts : XR → Prop
  | .fin s => 0 < s
  | _ => False

open Classical in
/-- the squared standardized deviation, for a restricting standard deviation -/
noncomputable def penalty (theta mu : ℝ) : XR → ℝ
  | .fin s => if 0 < s then ((theta - mu) / s) ^ 2 else 0
  | _ => 0

theorem term_fin (theta mu : ℝ) {s : XR} (h : s ≠ .nan) :
    (fin mu - fin theta) / setupPriorSigma s * ((fin mu - fin theta) / setupPriorSigma s) =
      fin (penalty theta mu s) := by
  have hinf : ∀ a : ℝ, fin a / (PyFloat.inf : XR) = fin 0 := fun _ => rfl
  have hi : ∀ s : XR, setupPriorSigma s = PyFloat.inf → penalty theta mu s = 0 →
      (fin mu - fin theta) / setupPriorSigma s * ((fin mu - fin theta) / setupPriorSigma s) =
      fin (penalty theta mu s) := by
    intro s h1 h2
    rw [h1, h2, fin_sub, hinf]
    simp
  cases s with
  | nan => exact absurd rfl h
  | ninf => exact hi _ rfl rfl
  | pinf => exact hi _ rfl rfl
  | fin s =>
    by_cases hs : 0 < s
    · have hb : PyFloat.beq (fin s) (lit 0) = false := by simp [hs.ne']
      have hl : PyFloat.le (fin s) (lit 0) = false := by simp [hs]
      have e : setupPriorSigma (fin s) = fin s := by
        unfold setupPriorSigma
        simp only [hb, hl, if_true, if_false, Bool.false_eq_true]
      have e2 : penalty theta mu (fin s) = ((theta - mu) / s) ^ 2 := by
        show (if 0 < s then ((theta - mu) / s) ^ 2 else 0) = _
        rw [if_pos hs]
      rw [e, e2, fin_sub, fin_div hs.ne', fin_mul]
      congr 1
      have := hs.ne'
      field_simp
      ring
    · apply hi
      · by_cases h0 : s = 0
        · have hb : PyFloat.beq (fin s) (lit 0) = true := by simp [h0]
          have hl : PyFloat.le (PyFloat.inf : XR) (lit 0) = false := by rw [lit_eq]; rfl
          unfold setupPriorSigma
          simp only [hb, hl, if_true, if_false, Bool.false_eq_true]
        · have hb : PyFloat.beq (fin s) (lit 0) = false := by simp [h0]
          have hl : PyFloat.le (fin s) (lit 0) = true := by simpa using not_lt.1 hs
          unfold setupPriorSigma
          simp only [hb, hl, if_true, if_false, Bool.false_eq_true]
      · show (if 0 < s then ((theta - mu) / s) ^ 2 else 0) = _
        rw [if_neg hs]

/-- **C58, value.** With finite parameters and prior means, and any prior standard deviations
that are not NaN, the default prior is the sum of the squared standardized deviations over the
parameters whose standard deviation is finite and positive. -/
theorem C58_value {n : ℕ} (theta mu : Fin n → ℝ) (sigma : Vec XR n) (hs : ∀ i, sigma i ≠ .nan) :
    defaultPriorfun (fun i => fin (theta i)) (fun i => fin (mu i)) (fun i => setupPriorSigma (sigma i)) =
      fin (∑ i, penalty (theta i) (mu i) (sigma i)) := by
  unfold defaultPriorfun
  have : (fun i => (fin (mu i) - fin (theta i)) / setupPriorSigma (sigma i) *
      ((fin (mu i) - fin (theta i)) / setupPriorSigma (sigma i))) =
      fun i => fin (penalty (theta i) (mu i) (sigma i)) := by
    funext i; exact term_fin _ _ (hs i)
  rw [this, vsum_fin]

/-- **C58, sign and minimum.** The default prior is never negative, and zero exactly when every
parameter with a finite positive standard deviation is at its prior mean. -/
theorem C58_minimum {n : ℕ} (theta mu : Fin n → ℝ) (sigma : Vec XR n) (hs : ∀ i, sigma i ≠ .nan) :
    ∃ v, defaultPriorfun (fun i => fin (theta i)) (fun i => fin (mu i))
        (fun i => setupPriorSigma (sigma i)) = fin v ∧ 0 ≤ v ∧
      (v = 0 ↔ ∀ i, Restricts (sigma i) → theta i = mu i) := by
  have hp : ∀ i, 0 ≤ penalty (theta i) (mu i) (sigma i) := by
    intro i
    unfold penalty
    split
    · split
      · positivity
      · exact le_refl _
    · exact le_refl _
  refine ⟨_, C58_value theta mu sigma hs, Finset.sum_nonneg fun i _ => hp i, ?_⟩
  rw [Finset.sum_eq_zero_iff_of_nonneg fun i _ => hp i]
  constructor
  · intro h i hr
    have := h i (Finset.mem_univ _)
    unfold penalty at this
    unfold Restricts at hr
    split at this
    · rename_i s he
      rw [he] at hr
      simp only at hr
      rw [if_pos hr] at this
      rcases div_eq_zero_iff.1 (pow_eq_zero_iff two_ne_zero |>.1 this) with h1 | h1
      · linarith
      · exact absurd h1 hr.ne'
    · rename_i hne
      split at hr
      · rename_i s he
        exact absurd he (hne s)
      · exact hr.elim
  · intro h i _
    unfold penalty
    split
    · rename_i s he
      split
      · rename_i hpos
        rw [h i (by rw [he]; exact hpos)]
        simp
      · rfl
    · rfl

/-- **C58, parameters without a prior.** A parameter with an infinite, zero or negative prior
standard deviation contributes nothing: the value is the same wherever that parameter is. -/
theorem C58_flat {n : ℕ} (theta theta' mu : Fin n → ℝ) (sigma : Vec XR n) (hs : ∀ i, sigma i ≠ .nan)
    (h : ∀ i, Restricts (sigma i) → theta i = theta' i) :
    defaultPriorfun (fun i => fin (theta i)) (fun i => fin (mu i)) (fun i => setupPriorSigma (sigma i)) =
    defaultPriorfun (fun i => fin (theta' i)) (fun i => fin (mu i))
      (fun i => setupPriorSigma (sigma i)) := by
  rw [C58_value _ _ _ hs, C58_value _ _ _ hs]
  congr 1
  apply Finset.sum_congr rfl
  intro i _
  unfold penalty
  split
  · rename_i s he
    split
    · rename_i hpos
      rw [h i (by rw [he]; exact hpos)]
    · rfl
  · rfl

/-- Two points that differ only where the prior width is infinite or not positive. -/
example : defaultPriorfun (fun i => fin ((![3, 8, 9] : Fin 3 → ℝ) i)) (fun i => fin ((![1, 0, 0] : Fin 3 → ℝ) i))
      (fun i => setupPriorSigma ((![fin 2, pinf, fin (-1)] : Vec XR 3) i)) =
    defaultPriorfun (fun i => fin ((![3, -5, 0] : Fin 3 → ℝ) i)) (fun i => fin ((![1, 0, 0] : Fin 3 → ℝ) i))
      (fun i => setupPriorSigma ((![fin 2, pinf, fin (-1)] : Vec XR 3) i)) := by
  refine C58_flat _ _ _ _ (by intro i; fin_cases i <;> simp) fun i hi => ?_
  fin_cases i
  · rfl
  · exact hi.elim
  · have h : (0 : ℝ) < -1 := hi
    norm_num at h

/-- **C58, prior mean.** A prior mean given as NaN means the initial value of the parameter; any other
prior mean is used as it is. -/
theorem C58_mean {F : Type} [PyFloat F] (mu value : F) :
    (PyFloat.isnan mu = true → setupPriorMu mu value = value) ∧
    (PyFloat.isnan mu = false → setupPriorMu mu value = mu) := by
  unfold setupPriorMu
  constructor <;> intro h <;> simp [h]

/-- one restricted and two unrestricted parameters: only the first counts, `((3-1)/2)² = 1` -/
example : defaultPriorfun (fun i => fin ((![3, 8, 9] : Fin 3 → ℝ) i)) (fun i => fin ((![1, 0, 0] : Fin 3 → ℝ) i))
    (fun i => setupPriorSigma ((![fin 2, pinf, fin (-1)] : Vec XR 3) i)) = fin 1 := by
  rw [C58_value _ _ _ (by intro i; fin_cases i <;> simp)]
  congr 1
  rw [Fin.sum_univ_three]
  show penalty 3 1 (fin 2) + penalty 8 0 pinf + penalty 9 0 (fin (-1)) = 1
  norm_num [penalty]

/-! ### C59: default sum of squares -/

/-- column of observations -/
def colArr {F : Type} (n : ℕ) (f : ℕ → F) : Arr F := ⟨n, 1, fun i _ => f i⟩

theorem weightedSquares_col {F : Type} [PyFloat F] (w : F) (n : ℕ) (y ym : ℕ → F) :
    ∃ a, weightedSquares w (colArr n y) (colArr n ym) = .ok a ∧ a.rows = n ∧ a.cols = 1 ∧
      ∀ i < n, a.val i 0 = w * ((y i - ym i) * (y i - ym i)) := by
  have h : weightedSquares w (colArr n y) (colArr n ym) = .ok ⟨n, 1, fun i _ => w *
      ((y (broadcastIdx n i) - ym (broadcastIdx n i)) *
       (y (broadcastIdx n i) - ym (broadcastIdx n i)))⟩ := by
    unfold weightedSquares broadcastLen colArr
    rw [if_pos rfl, if_pos rfl]
    rfl
  refine ⟨_, h, rfl, rfl, ?_⟩
  intro i hi
  have hb : broadcastIdx n i = i := by
    unfold broadcastIdx
    split
    · omega
    · rfl
  simp only [hb]

/-- a problem with real numbers: data set `i` has `len i` observations `y i`, weight `w i` and the
model predicts `pred i` -/
structure RealData where
  nbatch : ℕ
  len : ℕ → ℕ
  y : ℕ → ℕ → ℝ
  w : ℕ → ℝ
  pred : ℕ → ℕ → ℝ

/-- the data sets as the code gets them (`xdata` is the number of the data set) -/
def RealData.batches (D : RealData) : List (Batch ℕ XR) :=
  (List.range D.nbatch).map fun i => ⟨i, colArr (D.len i) fun k => fin (D.y i k), fin (D.w i)⟩

/-- **C59, full statement:** entry `i` is the weighted sum of squared residuals of data set `i`.
**Proved here:** for observations with one column and a model function that returns a column of the
same length, this is so.  Other shapes of observations or predictions raise an error, see
`C59_columns_refuted` and `C59_flat_prediction_refuted`. -/
theorem C59_value_partial (D : RealData) {T : Type} (theta : T) (model : ℕ → T → Except PyErr (Arr XR))
    (hm : ∀ i < D.nbatch, model i theta = .ok (colArr (D.len i) fun k => fin (D.pred i k))) :
    mcmcSosFunction theta D.batches D.nbatch model = .ok ((List.range D.nbatch).map fun i =>
      fin (∑ k ∈ Finset.range (D.len i), D.w i * (D.y i k - D.pred i k) ^ 2)) := by
  unfold mcmcSosFunction
  have key : ∀ l : List ℕ, (∀ i ∈ l, i < D.nbatch) →
      l.mapM (fun ibatch => do
        let b ← pyGet D.batches ibatch
        let ym ← model b.xdata theta
        let sq ← weightedSquares b.weight b.ydata ym
        batchSum sq) = .ok (l.map fun i =>
          fin (∑ k ∈ Finset.range (D.len i), D.w i * (D.y i k - D.pred i k) ^ 2)) := by
    intro l
    induction l with
    | nil => intro _; rfl
    | cons i l ih =>
      intro hl
      have hi := hl i (by simp)
      have hg : pyGet D.batches i = .ok ⟨i, colArr (D.len i) fun k => fin (D.y i k), fin (D.w i)⟩ := by
        rw [pyGet_ok]
        unfold RealData.batches
        rw [List.getElem?_map, List.getElem?_range hi]
        rfl
      obtain ⟨a, ha, hr, hc, hv⟩ := weightedSquares_col (fin (D.w i)) (D.len i)
        (fun k => fin (D.y i k)) fun k => fin (D.pred i k)
      have hsum : batchSum a = .ok
          (fin (∑ k ∈ Finset.range (D.len i), D.w i * (D.y i k - D.pred i k) ^ 2)) := by
        unfold batchSum
        rw [hr, hc]
        by_cases h0 : D.len i = 0
        · rw [if_pos h0, h0]
          simp
        · rw [if_neg h0, if_pos rfl]
          have : (List.range (D.len i)).map (fun k => a.val k 0) =
              ((List.range (D.len i)).map fun k => D.w i * (D.y i k - D.pred i k) ^ 2).map fin := by
            rw [List.map_map]
            apply List.map_congr_left
            intro k hk
            rw [hv k (List.mem_range.1 hk)]
            simp [pow_two]
          rw [this, lsum_fin]
          simp only [lit_eq, fin_add]
          congr 2
          rw [Finset.sum_range]
          push_cast
          rw [zero_add, ← List.sum_ofFn]
          congr 1
          apply List.ext_getElem <;> simp
      rw [List.mapM_cons, ih fun j hj => hl j (List.mem_cons_of_mem _ hj), hg, ok_bind, hm i hi, ok_bind,
        ha, ok_bind, hsum]
      rfl
  exact key _ fun i hi => List.mem_range.1 hi

/-- **C59, sign and zero.** With non-negative weights every entry is finite and non-negative, and
zero exactly when the model reproduces every observation of a data set with positive weight. -/
theorem C59_zero (D : RealData) (hw : ∀ i < D.nbatch, 0 ≤ D.w i) {T : Type} (theta : T)
    (model : ℕ → T → Except PyErr (Arr XR))
    (hm : ∀ i < D.nbatch, model i theta = .ok (colArr (D.len i) fun k => fin (D.pred i k))) :
    ∃ ss, mcmcSosFunction theta D.batches D.nbatch model = .ok ss ∧ ss.length = D.nbatch ∧
      ∀ i < D.nbatch, ∃ v, ss[i]? = some (fin v) ∧ 0 ≤ v ∧
        (v = 0 ↔ (0 < D.w i → ∀ k < D.len i, D.pred i k = D.y i k)) := by
  refine ⟨_, C59_value_partial D theta model hm, by simp, fun i hi =>
    ⟨∑ k ∈ Finset.range (D.len i), D.w i * (D.y i k - D.pred i k) ^ 2, ?_, ?_, ?_⟩⟩
  · rw [List.getElem?_map, List.getElem?_range hi]
    rfl
  · exact Finset.sum_nonneg fun k _ => mul_nonneg (hw i hi) (sq_nonneg _)
  · rw [Finset.sum_eq_zero_iff_of_nonneg fun k _ => mul_nonneg (hw i hi) (sq_nonneg _)]
    constructor
    · intro h hpos k hk
      rcases mul_eq_zero.1 (h k (Finset.mem_range.2 hk)) with h1 | h1
      · exact absurd h1 hpos.ne'
      · have := pow_eq_zero_iff two_ne_zero |>.1 h1
        linarith
    · intro h k hk
      rcases lt_or_eq_of_le (hw i hi) with h1 | h1
      · rw [h h1 k (Finset.mem_range.1 hk)]
        simp
      · rw [← h1]; ring

/-- Data and model agreeing exactly on one batch of two points. -/
example : ∃ ss, mcmcSosFunction (X := ℕ) () (RealData.batches ⟨1, fun _ => 2, fun _ k => k, fun _ => 3, fun _ k => k⟩) 1
      (fun _ _ => .ok (colArr 2 fun k => fin (k : ℝ))) = .ok ss ∧ ss[0]? = some (fin 0) := by
  obtain ⟨ss, h, -, h2⟩ := C59_zero ⟨1, fun _ => 2, fun _ k => k, fun _ => 3, fun _ k => k⟩ (fun _ _ => by norm_num) ()
    (fun _ _ => .ok (colArr 2 fun k => fin (k : ℝ))) fun _ _ => rfl
  obtain ⟨v, h3, -, h4⟩ := h2 0 (by norm_num)
  exact ⟨ss, h, by rw [h3, h4.2 fun _ _ _ => rfl]⟩

/-- **C59 is false for observations with several columns**: with at least one row and two or more
columns the default sum of squares raises `ValueError`, whatever the model predicts. -/
theorem C59_columns_refuted {F X T : Type} [PyFloat F] (theta : T) (x : X) (w : F) (y ym : Arr F)
    (hr : 0 < y.rows) (hc : 2 ≤ y.cols) (model : X → T → Except PyErr (Arr F))
    (hm : model x theta = .ok ym) (h1 : ym.rows = y.rows) (h2 : ym.cols = y.cols) :
    mcmcSosFunction theta [⟨x, y, w⟩] 1 model = .error .valueError := by
  have h3 : weightedSquares w y ym = .ok ⟨y.rows, y.cols, fun i j => w *
      ((y.val (broadcastIdx y.rows i) (broadcastIdx y.cols j) -
        ym.val (broadcastIdx ym.rows i) (broadcastIdx ym.cols j)) *
       (y.val (broadcastIdx y.rows i) (broadcastIdx y.cols j) -
        ym.val (broadcastIdx ym.rows i) (broadcastIdx ym.cols j)))⟩ := by
    unfold weightedSquares broadcastLen
    rw [if_pos h1.symm, if_pos h2.symm]
    rfl
  unfold mcmcSosFunction
  rw [List.range_one, List.mapM_cons]
  have e0 : pyGet [(⟨x, y, w⟩ : Batch X F)] 0 = .ok ⟨x, y, w⟩ := rfl
  rw [e0, ok_bind, hm, ok_bind, h3, ok_bind]
  unfold batchSum
  rw [if_neg (by simp only; omega), if_neg (by simp only; omega)]
  rfl

/-- **C59 is false for predictions with one axis**: if the model returns a one-dimensional array of
the length of the observations (two or more), the default sum of squares raises `ValueError`. -/
theorem C59_flat_prediction_refuted {F X T : Type} [PyFloat F] (theta : T) (x : X) (w : F) (n : ℕ)
    (hn : 2 ≤ n) (y : ℕ → F) (ym : Arr F) (model : X → T → Except PyErr (Arr F))
    (hm : model x theta = .ok ym) (h1 : ym.rows = 1) (h2 : ym.cols = n) :
    mcmcSosFunction theta [⟨x, colArr n y, w⟩] 1 model = .error .valueError := by
  have h3 : ∃ v, weightedSquares w (colArr n y) ym = .ok ⟨n, n, v⟩ := by
    unfold weightedSquares broadcastLen colArr
    have e1 : ¬ n = 1 := by omega
    have e2 : ¬ 1 = n := by omega
    simp only [h1, h2, if_neg e1, if_neg e2, if_true]
    exact ⟨_, rfl⟩
  obtain ⟨v, h3⟩ := h3
  unfold mcmcSosFunction
  rw [List.range_one, List.mapM_cons]
  have e0 : pyGet [(⟨x, colArr n y, w⟩ : Batch X F)] 0 = .ok ⟨x, colArr n y, w⟩ := rfl
  rw [e0, ok_bind, hm, ok_bind, h3, ok_bind]
  unfold batchSum
  rw [if_neg (by simp only; omega), if_neg (by simp only; omega)]
  rfl

/-- **C59, predictions of another length.** A column of predictions that has not the length of the
observations raises `ValueError`, unless one of the two lengths is one. -/
theorem C59_lengths {F X T : Type} [PyFloat F] (theta : T) (x : X) (w : F) {n k : ℕ} (y ym : ℕ → F)
    (hnk : n ≠ k) (hn : n ≠ 1) (hk : k ≠ 1) (model : X → T → Except PyErr (Arr F))
    (hm : model x theta = .ok (colArr k ym)) :
    mcmcSosFunction theta [⟨x, colArr n y, w⟩] 1 model = .error .valueError := by
  have h3 : weightedSquares w (colArr n y) (colArr k ym) = .error .valueError := by
    unfold weightedSquares broadcastLen colArr
    simp only [if_neg hnk, if_neg hn, if_neg hk]
    rfl
  unfold mcmcSosFunction
  rw [List.range_one, List.mapM_cons]
  have e0 : pyGet [(⟨x, colArr n y, w⟩ : Batch X F)] 0 = .ok ⟨x, colArr n y, w⟩ := rfl
  rw [e0, ok_bind, hm, ok_bind, h3]
  rfl

/-- **C59, a single prediction** is compared with every observation. -/
theorem C59_single {X T : Type} (theta : T) (x : X) (w : ℝ) (n : ℕ) (y : ℕ → ℝ) (c : ℝ)
    (model : X → T → Except PyErr (Arr XR)) (hm : model x theta = .ok (colArr 1 fun _ => fin c)) :
    mcmcSosFunction theta [⟨x, colArr n fun k => fin (y k), fin w⟩] 1 model =
      .ok [fin (∑ k ∈ Finset.range n, w * (y k - c) ^ 2)] := by
  have h3 : ∃ v, weightedSquares (fin w) (colArr n fun k => fin (y k)) (colArr 1 fun _ => fin c) =
      .ok ⟨n, 1, v⟩ ∧ ∀ i < n, v i 0 = fin (w * (y i - c) ^ 2) := by
    refine ⟨fun i _ => fin w * ((fin (y (broadcastIdx n i)) - fin c) *
      (fin (y (broadcastIdx n i)) - fin c)), ?_, fun i hi => ?_⟩
    · have hb : broadcastLen n 1 = .ok n := by
        unfold broadcastLen
        by_cases h : n = 1
        · rw [if_pos h]
        · rw [if_neg h, if_neg h, if_pos rfl]
      have hb1 : broadcastLen 1 1 = .ok 1 := rfl
      unfold weightedSquares colArr
      simp only [hb, hb1]
      rfl
    · have hb : broadcastIdx n i = i := by
        unfold broadcastIdx
        split
        · omega
        · rfl
      simp [hb, pow_two]
  obtain ⟨v, h3, hv⟩ := h3
  unfold mcmcSosFunction
  rw [List.range_one, List.mapM_cons]
  have e0 : pyGet [(⟨x, colArr n fun k => fin (y k), fin w⟩ : Batch X XR)] 0 =
    .ok ⟨x, colArr n fun k => fin (y k), fin w⟩ := rfl
  have hsum : batchSum (⟨n, 1, v⟩ : Arr XR) = .ok (fin (∑ k ∈ Finset.range n, w * (y k - c) ^ 2)) := by
    unfold batchSum
    by_cases h0 : n = 0
    · subst h0
      simp
    · rw [if_neg h0, if_pos rfl]
      have : (List.range n).map (fun k => v k 0) =
          ((List.range n).map fun k => w * (y k - c) ^ 2).map fin := by
        rw [List.map_map]
        exact List.map_congr_left fun k hk => hv k (List.mem_range.1 hk)
      simp only
      rw [this, lsum_fin]
      simp only [lit_eq, fin_add]
      congr 2
      rw [Finset.sum_range]
      push_cast
      rw [zero_add, ← List.sum_ofFn]
      congr 1
      apply List.ext_getElem <;> simp
  rw [e0, ok_bind, hm, ok_bind, h3, ok_bind, hsum]
  rfl

/-- three observations: two predictions are refused, one is used for all of them -/
example : mcmcSosFunction () [⟨(), colArr 3 fun k => fin (k : ℝ), fin 1⟩] 1
      (fun _ _ => .ok (colArr 2 fun _ => fin 1)) = .error .valueError ∧
    mcmcSosFunction () [⟨(), colArr 3 fun k => fin (k : ℝ), fin 1⟩] 1
      (fun _ _ => .ok (colArr 1 fun _ => fin 1)) = .ok [fin 2] := by
  refine ⟨C59_lengths () () _ _ (fun _ => fin 1) (by norm_num : 3 ≠ 2) (by norm_num) (by norm_num) _ rfl,
    ?_⟩
  rw [C59_single () () 1 3 (fun k => (k : ℝ)) 1 _ rfl]
  simp [Finset.sum_range_succ]
  norm_num

/-- two data sets of different lengths and weights -/
example : ∃ (D : RealData) (model : ℕ → Unit → Except PyErr (Arr XR)), D.nbatch = 2 ∧
    (∀ i < D.nbatch, 0 ≤ D.w i) ∧
    (∀ i < D.nbatch, model i () = .ok (colArr (D.len i) fun k => fin (D.pred i k))) ∧
    mcmcSosFunction () D.batches D.nbatch model = .ok [fin 3, fin 20] := by
  let D : RealData := ⟨2, fun i => i + 1, fun i k => i + k + 1, fun i => i + 3, fun i k => if k = 0 then i else k⟩
  refine ⟨D, fun i _ => .ok (colArr (D.len i) fun k => fin (D.pred i k)), rfl, fun i _ => ?_,
    fun _ _ => rfl, ?_⟩
  · simp only [D]; positivity
  · rw [C59_value_partial D () _ fun _ _ => rfl]
    simp [D, List.range_succ, Finset.sum_range_succ]
    norm_num

end Verif
