import Verif.Lemmas.CovXR
import Verif.Lemmas.CovRun
import Verif.Spec.Toy
import Verif.Props.Progress
import Mathlib.Tactic.NormNum

/-! # C12, C13: the covariance of the chain -/

namespace Verif
set_option linter.unusedSectionVars false
open XR
variable {σ : Type} {n : ℕ}

/-- **C13**, first update: without earlier mean and covariance the result is the weighted sample
mean, covariance and weight (covariance zero when the weights sum to at most one). -/
theorem C13_first_update (hn : 0 < n) {l : List ((Fin n → ℝ) × ℝ)} (hl : l ≠ [])
    (hpos : ∀ p ∈ l, 0 < p.2) (m0 : Option (Vec XR n)) (w0 : Option XR) :
    updateCovarianceMeanSum (rowsOf l) (some (weightsOf l)) none m0 w0 =
      .ok (some (finMat (if 1 < wSum l then wCov l else fun _ _ => 0)),
        some (finVec (wMean l)), some (.fin (wSum l))) :=
  update_none l hn hl (wSum_pos hl hpos).ne' m0 w0

/-- **C13**, later updates: with an earlier covariance `c0`, mean `m0` and weight `w0 ≥ 1`, the
result is the weighted batch formula in which the earlier data count as `w0` observations. -/
theorem C13_later_update (hn : 0 < n) {l : List ((Fin n → ℝ) × ℝ)} (hl : l ≠ [])
    (hpos : ∀ p ∈ l, 0 < p.2) (c0 : Fin n → Fin n → ℝ) (m0 : Fin n → ℝ) {w0 : ℝ} (hw : 1 ≤ w0) :
    ∃ (C : Fin n → Fin n → ℝ) (M : Fin n → ℝ) (W : ℝ),
      updateCovarianceMeanSum (rowsOf l) (some (weightsOf l)) (some (finMat c0)) (some (finVec m0))
        (some (.fin w0)) = .ok (some (finMat C), some (finVec M), some (.fin W)) ∧
      W = w0 + wSum l ∧
      (∀ i, M i = (w0 * m0 i + (l.map fun p => p.2 * p.1 i).sum) / W) ∧
      ∀ i j, C i j = ((w0 - 1) * c0 i j + w0 * ((m0 i - M i) * (m0 j - M j)) + wScatter M l i j) /
        (W - 1) := by
  have hg := goodWeights_of_one_le hw l hpos
  have hW := wSum_pos hl hpos
  obtain ⟨e1, e2, e3⟩ := foldl_covStepR l (c0, m0, w0) hg
  refine ⟨_, _, _, update_some l hn (c0, m0, w0) hg, e1, fun i => ?_, fun i j => ?_⟩
  · rw [eq_div_iff (by rw [e1]; dsimp only; linarith), e2]
  · rw [eq_div_iff (by rw [e1]; dsimp only; linarith), wScatter_expand]
    have h1 := e2 i
    have h2 := e2 j
    have h3 := e3 i j
    dsimp only at e1 h1 h2 h3
    set R := l.foldl covStepR (c0, m0, w0)
    have s1 : (l.map fun p => p.2 * p.1 i).sum = R.2.1 i * R.2.2 - w0 * m0 i := by linarith
    have s2 : (l.map fun p => p.2 * p.1 j).sum = R.2.1 j * R.2.2 - w0 * m0 j := by linarith
    have s3 : wSum l = R.2.2 - w0 := by linarith
    rw [s1, s2, s3]
    linear_combination h3

/-- One new point of weight one merged into a mean of 1, variance 2 and weight 2. -/
example : ∃ (C : Fin 1 → Fin 1 → ℝ) (M : Fin 1 → ℝ),
    updateCovarianceMeanSum (rowsOf [((fun _ => 4 : Fin 1 → ℝ), (1 : ℝ))]) (some (weightsOf [((fun _ => 4 : Fin 1 → ℝ), (1 : ℝ))]))
      (some (finMat fun _ _ => 2)) (some (finVec fun _ => 1)) (some (.fin 2)) =
        .ok (some (finMat C), some (finVec M), some (.fin 3)) ∧ M 0 = 2 ∧ C 0 0 = 4 := by
  obtain ⟨C, M, W, h, hW, hM, hC⟩ := C13_later_update (n := 1) one_pos
    (l := [((fun _ => 4 : Fin 1 → ℝ), (1 : ℝ))]) (by simp) (by simp) (fun _ _ => 2) (fun _ => 1) (w0 := 2) (by norm_num)
  have hW3 : W = 3 := by rw [hW]; simp [wSum]; norm_num
  subst hW3
  have hM2 : M 0 = 2 := by rw [hM]; norm_num
  refine ⟨C, M, h, hM2, ?_⟩
  rw [hC, hM2]
  simp [wScatter, hM2]
  norm_num

theorem update_bind_some (hn : 0 < n) {l1 l2 : List ((Fin n → ℝ) × ℝ)}
    (a : (Fin n → Fin n → ℝ) × (Fin n → ℝ) × ℝ) (hw : GoodWeights a.2.2 (l1 ++ l2))
    (h1 : GoodWeights a.2.2 l1) (h2 : GoodWeights (l1.foldl covStepR a).2.2 l2) :
    ((updateCovarianceMeanSum (rowsOf l1) (some (weightsOf l1)) (some (finMat a.1))
        (some (finVec a.2.1)) (some (.fin a.2.2))) >>= fun r =>
      updateCovarianceMeanSum (rowsOf l2) (some (weightsOf l2)) r.1 r.2.1 r.2.2) =
    updateCovarianceMeanSum (rowsOf (l1 ++ l2)) (some (weightsOf (l1 ++ l2))) (some (finMat a.1))
        (some (finVec a.2.1)) (some (.fin a.2.2)) := by
  rw [update_some l1 hn a h1, update_some (l1 ++ l2) hn a hw, List.foldl_append]
  rw [ok_bind]
  exact update_some l2 hn _ h2

/-- **C13**, cutting, with an earlier covariance: updating with `l1` and then with `l2` is
updating with `l1 ++ l2`. -/
theorem C13_cut_later (hn : 0 < n) {l1 l2 : List ((Fin n → ℝ) × ℝ)}
    (hpos : ∀ p ∈ l1 ++ l2, 0 < p.2) (c0 : Fin n → Fin n → ℝ) (m0 : Fin n → ℝ) {w0 : ℝ} (hw : 1 ≤ w0) :
    ((updateCovarianceMeanSum (rowsOf l1) (some (weightsOf l1)) (some (finMat c0))
        (some (finVec m0)) (some (.fin w0))) >>= fun r =>
      updateCovarianceMeanSum (rowsOf l2) (some (weightsOf l2)) r.1 r.2.1 r.2.2) =
    updateCovarianceMeanSum (rowsOf (l1 ++ l2)) (some (weightsOf (l1 ++ l2))) (some (finMat c0))
        (some (finVec m0)) (some (.fin w0)) := by
  have h1 : ∀ p ∈ l1, 0 < p.2 := fun p hp => hpos p (by simp [hp])
  have h2 : ∀ p ∈ l2, 0 < p.2 := fun p hp => hpos p (by simp [hp])
  have g1 := goodWeights_of_one_le hw l1 h1
  refine update_bind_some hn (c0, m0, w0) (goodWeights_of_one_le hw _ hpos) g1
    (goodWeights_of_one_le ?_ l2 h2)
  rw [(foldl_covStepR l1 (c0, m0, w0) g1).1]
  have : 0 ≤ wSum l1 := by
    by_cases h : l1 = []
    · subst h; simp [wSum]
    · exact (wSum_pos h h1).le
  dsimp only
  linarith

/-- the state after a first update, updated further -/
theorem foldl_first {l1 l2 : List ((Fin n → ℝ) × ℝ)} (hl1 : l1 ≠ []) (hl2 : l2 ≠ [])
    (hpos : ∀ p ∈ l1 ++ l2, 0 < p.2)
    (hw : 1 < wSum l1 ∨ (l1.length = 1 ∧ 1 ≤ wSum l1)) :
    l2.foldl covStepR (if 1 < wSum l1 then wCov l1 else fun _ _ => 0, wMean l1, wSum l1) =
      (wCov (l1 ++ l2), wMean (l1 ++ l2), wSum (l1 ++ l2)) := by
  have h1 : ∀ p ∈ l1, 0 < p.2 := fun p hp => hpos p (by simp [hp])
  have h2 : ∀ p ∈ l2, 0 < p.2 := fun p hp => hpos p (by simp [hp])
  have p1 := wSum_pos hl1 h1
  have p2 := wSum_pos hl2 h2
  have hw1 : 1 ≤ wSum l1 := by rcases hw with h | h <;> [exact h.le; exact h.2]
  have hsum := wSum_append l1 l2
  set c1 : Fin n → Fin n → ℝ := if 1 < wSum l1 then wCov l1 else fun _ _ => 0 with hc1
  have hscat : ∀ i j, (wSum l1 - 1) * c1 i j = wScatter (wMean l1) l1 i j := by
    intro i j
    by_cases h : 1 < wSum l1
    · rw [hc1, if_pos h]; unfold wCov
      have : wSum l1 - 1 ≠ 0 := by linarith
      field_simp
    · rw [hc1, if_neg h]
      rcases hw with h' | h'
      · exact absurd h' h
      · obtain ⟨p, rfl⟩ := List.length_eq_one_iff.1 h'.1
        have hp := h1 p (by simp)
        have : ∀ i, wMean [p] i = p.1 i := fun i => by
          simp only [wMean, wSum, List.map_cons, List.map_nil, List.sum_cons, List.sum_nil, add_zero]
          rw [mul_div_assoc, mul_comm, div_mul_cancel₀ _ hp.ne']
        simp [wScatter, this]
  obtain ⟨e1, e2, e3⟩ := foldl_covStepR l2 (c1, wMean l1, wSum l1) (goodWeights_of_one_le hw1 l2 h2)
  dsimp only at e1 e2 e3
  set R := l2.foldl covStepR (c1, wMean l1, wSum l1) with hR
  have f1 : R.2.2 = wSum (l1 ++ l2) := by rw [e1, hsum]
  have hne : wSum (l1 ++ l2) ≠ 0 := by rw [hsum]; linarith
  have f2 : R.2.1 = wMean (l1 ++ l2) := by
    funext i
    have : R.2.1 i * wSum (l1 ++ l2) = wMean (l1 ++ l2) i * wSum (l1 ++ l2) := by
      rw [← f1, e2 i, f1, ← wMean_mul hne, List.map_append, List.sum_append, wMean_mul p1.ne']
      ring
    exact mul_right_cancel₀ hne this
  have f3 : R.1 = wCov (l1 ++ l2) := by
    funext i j
    unfold wCov
    rw [eq_div_iff (by rw [hsum]; linarith), wScatter_mean hne, List.map_append, List.sum_append]
    have h3 := e3 i j
    rw [f1, f2] at h3
    have h4 := wScatter_mean p1.ne' i j
    rw [← hscat] at h4
    linear_combination h3 + h4
  exact Prod.ext f3 (Prod.ext f2 f1)

/-- **C13**, cutting, without an earlier covariance: updating with `l1` and then with `l2` is
updating with `l1 ++ l2`, provided the weights of `l1` sum to more than one, or to at least one if
`l1` is a single row.  (`C13_small_weights_refuted` shows that this is needed.) -/
theorem C13_cut_first (hn : 0 < n) {l1 l2 : List ((Fin n → ℝ) × ℝ)} (hl1 : l1 ≠ [])
    (hpos : ∀ p ∈ l1 ++ l2, 0 < p.2) (hw : 1 < wSum l1 ∨ (l1.length = 1 ∧ 1 ≤ wSum l1))
    (m0 : Option (Vec XR n)) (w0 : Option XR) :
    ((updateCovarianceMeanSum (rowsOf l1) (some (weightsOf l1)) none m0 w0) >>= fun r =>
      updateCovarianceMeanSum (rowsOf l2) (some (weightsOf l2)) r.1 r.2.1 r.2.2) =
    updateCovarianceMeanSum (rowsOf (l1 ++ l2)) (some (weightsOf (l1 ++ l2))) none m0 w0 := by
  have h1 : ∀ p ∈ l1, 0 < p.2 := fun p hp => hpos p (by simp [hp])
  have h2 : ∀ p ∈ l2, 0 < p.2 := fun p hp => hpos p (by simp [hp])
  have p1 := wSum_pos hl1 h1
  have hw1 : 1 ≤ wSum l1 := by rcases hw with h | h <;> [exact h.le; exact h.2]
  rw [update_none l1 hn hl1 p1.ne']
  rw [ok_bind]
  by_cases hl2 : l2 = []
  · subst hl2
    rw [List.append_nil, update_none l1 hn hl1 p1.ne']
    rfl
  · have p2 := wSum_pos hl2 h2
    have hsum := wSum_append l1 l2
    have hs := update_some l2 hn (if 1 < wSum l1 then wCov l1 else fun _ _ => 0, wMean l1, wSum l1)
      (goodWeights_of_one_le hw1 l2 h2)
    rw [foldl_first hl1 hl2 hpos hw] at hs
    rw [hs, update_none _ hn (by simp [hl1]) (by rw [hsum]; linarith),
      if_pos (by rw [hsum]; linarith)]

/-- Without the condition on the weights of the first segment cutting the sample changes the
covariance: two rows of weight 1/2 and then one of weight 1. -/
theorem C13_small_weights_refuted :
    ¬ ∀ (l1 l2 : List ((Fin 1 → ℝ) × ℝ)), l1 ≠ [] → (∀ p ∈ l1 ++ l2, 0 < p.2) →
      ((updateCovarianceMeanSum (rowsOf l1) (some (weightsOf l1)) none none none) >>= fun r =>
        updateCovarianceMeanSum (rowsOf l2) (some (weightsOf l2)) r.1 r.2.1 r.2.2) =
      updateCovarianceMeanSum (rowsOf (l1 ++ l2)) (some (weightsOf (l1 ++ l2))) none none none := by
  intro hall
  have h := hall [(fun _ => 0, 1/2), (fun _ => 2, 1/2)] [(fun _ => 1, 1)] (by simp)
    (by simp)
  have e : wSum ([(fun _ => 0, 1/2), (fun _ => 2, 1/2)] : List ((Fin 1 → ℝ) × ℝ)) = 1 := by
    simp [wSum]; norm_num
  rw [update_none _ one_pos (by simp) (by rw [e]; exact one_ne_zero), if_neg (by rw [e]; exact lt_irrefl _)] at h
  have hg : GoodWeights (wSum ([(fun _ => 0, 1/2), (fun _ => 2, 1/2)] : List ((Fin 1 → ℝ) × ℝ)))
      [((fun _ => 1 : Fin 1 → ℝ), (1:ℝ))] := goodWeights_of_one_le e.ge _ (by simp)
  have h3 := update_some [((fun _ => 1 : Fin 1 → ℝ), (1:ℝ))] one_pos (fun _ _ => 0,
    wMean [(fun _ => 0, 1/2), (fun _ => 2, 1/2)], wSum [(fun _ => 0, 1/2), (fun _ => 2, 1/2)]) hg
  rw [ok_bind] at h
  rw [h3] at h
  have e2 : wSum ([(fun _ => 0, 1/2), (fun _ => 2, 1/2)] ++ [(fun _ => 1, 1)] : List ((Fin 1 → ℝ) × ℝ)) = 2 := by
    rw [wSum_append, e]; simp [wSum]; norm_num
  rw [update_none _ one_pos (by simp) (by rw [e2]; norm_num), if_pos (by rw [e2]; norm_num)] at h
  have h4 := congrArg (fun x : Option (Mat XR 1) × Option (Vec XR 1) × Option XR => x.1) (Except.ok.inj h)
  have h5 := congrFun (congrFun (Option.some.inj h4) 0) 0
  simp only [finMat, fin_inj, wCov, wScatter, e2] at h5
  simp only [List.foldl_cons, List.foldl_nil, covStepR, wMean, e, e2] at h5
  simp [wMean, e2] at h5
  norm_num at h5

/-- the hypotheses of the `C13` theorems hold for these samples -/
example : (∀ p ∈ ([(fun _ => 0, 1), (fun _ => 2, 3)] ++ [(fun _ => 5, 1/2)] : List ((Fin 1 → ℝ) × ℝ)), 0 < p.2) ∧
    1 < wSum ([(fun _ => 0, 1), (fun _ => 2, 3)] : List ((Fin 1 → ℝ) × ℝ)) ∧
    wCov ([(fun _ => 0, 1), (fun _ => 2, 3)] : List ((Fin 1 → ℝ) × ℝ)) 0 0 = 1 := by
  refine ⟨by simp, by simp [wSum], ?_⟩
  simp [wCov, wScatter, wMean, wSum]; norm_num

/-! ### C12 -/

/-- the covariance object holds the moments of the given rows -/
def HoldsMoments (c : CovState XR n) (rows : List (Fin n → ℝ)) : Prop :=
  c.meanchain = some (finVec (sampleMean rows)) ∧ c.covchain = some (finMat (sampleCov rows)) ∧
    c.wsum = some (.fin rows.length)

theorem foldl_moments {r1 r2 : List (Fin n → ℝ)} (h1 : r1 ≠ []) (h2 : r2 ≠ []) :
    (ones r2).foldl covStepR (sampleCov r1, sampleMean r1, (r1.length : ℝ)) =
      (sampleCov (r1 ++ r2), sampleMean (r1 ++ r2), ((r1 ++ r2).length : ℝ)) := by
  have e : ones r1 ++ ones r2 = ones (r1 ++ r2) := by simp [ones]
  have hn1 : ones r1 ≠ [] := by simpa [ones] using h1
  have hn2 : ones r2 ≠ [] := by simpa [ones] using h2
  have hw : 1 < wSum (ones r1) ∨ ((ones r1).length = 1 ∧ 1 ≤ wSum (ones r1)) := by
    rw [wSum_ones]
    have : 1 ≤ r1.length := List.length_pos_iff.2 h1
    rcases Nat.lt_or_ge 1 r1.length with h | h
    · left; exact_mod_cast h
    · right; refine ⟨by simp [ones]; omega, by exact_mod_cast this⟩
  have := foldl_first hn1 hn2 (by rw [e]; unfold ones; intro p hp; obtain ⟨r, _, rfl⟩ := List.mem_map.1 hp; exact one_pos) hw
  rw [cov_single h1, e, wMean_ones, wMean_ones, wSum_ones, wSum_ones, wCov_ones] at this
  exact this

/-- one adaptation extends the moments by the rows since the adaptation before -/
theorem update_moments (hn : 0 < n) {c c' : CovState XR n} {r1 r2 : List (Fin n → ℝ)} (h2 : r2 ≠ [])
    (hc : if r1 = [] then c.covchain = none else HoldsMoments c r1)
    (h : updateCovarianceMeanSum (r2.map finVec) (some [lit 1]) c.covchain c.meanchain c.wsum =
      .ok (c'.covchain, c'.meanchain, c'.wsum)) : HoldsMoments c' (r1 ++ r2) := by
  have hn2 : ones r2 ≠ [] := by simpa [ones] using h2
  have hp2 : wSum (ones r2) ≠ 0 := (wSum_pos hn2 (by simp [ones])).ne'
  rw [update_unit] at h
  by_cases h1 : r1 = []
  · subst h1
    rw [if_pos rfl] at hc
    rw [hc, update_none _ hn hn2 hp2, cov_single h2, wMean_ones, wSum_ones] at h
    have h := Except.ok.inj h
    rw [Prod.mk.injEq, Prod.mk.injEq] at h
    exact ⟨h.2.1.symm, h.1.symm, h.2.2.symm⟩
  · rw [if_neg h1] at hc
    obtain ⟨e1, e2, e3⟩ := hc
    rw [e1, e2, e3] at h
    have hl : 1 ≤ r1.length := List.length_pos_iff.2 h1
    rw [update_some (ones r2) hn (sampleCov r1, sampleMean r1, (r1.length : ℝ))
      (goodWeights_of_one_le (by dsimp only; exact_mod_cast hl) _ (by simp [ones])), foldl_moments h1 h2] at h
    have h := Except.ok.inj h
    rw [Prod.mk.injEq, Prod.mk.injEq] at h
    exact ⟨h.2.1.symm, h.1.symm, h.2.2.symm⟩

/-- invariant of the main loop for C12 -/
def MomentInv {N m : ℕ} (b : ℤ) (i : ℕ) (s : SimState XR σ N n m) : Prop :=
  s.chainIndex + 1 = i ∧ s.cov.lastIndex < i ∧
  ∀ rows : List (Fin n → ℝ), s.chain.take i = rows.map finVec →
    (if rows.take s.cov.lastIndex = [] then s.cov.covchain = none
      else HoldsMoments s.cov (rows.take s.cov.lastIndex)) ∧
    ∀ r ∈ s.adaptLog, r.at_ < i ∧ (b ≤ r.at_ → HoldsMoments r.after (rows.take r.at_))

theorem MomentInv.step {N m : ℕ} (hn : 0 < n) {E : Env XR σ N n m} {i : ℕ}
    {s s' : SimState XR σ N n m} {p : Proposal XR σ N n m} (hi : 1 ≤ i)
    (h : MomentInv E.opts.burnintime i s) (hp : StepSpec E i s s' p) :
    MomentInv E.opts.burnintime (i + 1) s' := by
  obtain ⟨h1, h2, h3⟩ := h
  have hpre : s'.chain.take i = s.chain.take i := by
    rw [hp.chain, h1, List.take_set_of_le le_rfl]
  have hcov := hp.cov
  by_cases ha : adaptNow E s
  · rw [if_pos ha] at hcov
    have hlen : i < s'.chain.length := by rw [hp.chain, List.length_set, ← h1]; exact hp.lt
    rcases runAdaptation_ok hcov with ⟨hb, hc⟩ | ⟨hb, hc⟩
    · refine ⟨by rw [hp.idx]; omega, by rw [hc]; dsimp only; omega, fun rows hr => ?_⟩
      have hr' : s.chain.take i = (rows.take i).map finVec := by
        rw [← hpre, List.map_take, ← hr, List.take_take]; congr 1; omega
      obtain ⟨q1, q2⟩ := h3 _ hr'
      rw [List.take_take, min_eq_left h2.le] at q1
      refine ⟨?_, fun r hr => ?_⟩
      · rw [hc]; exact q1
      · rw [hp.adaptLog, if_pos ha, List.mem_append, List.mem_singleton] at hr
        rcases hr with hr | hr
        · obtain ⟨t1, t2⟩ := q2 r hr
          rw [List.take_take, min_eq_left t1.le] at t2
          exact ⟨by omega, t2⟩
        · rw [hr]; exact ⟨by dsimp only; omega, fun hb' => absurd hb' (not_le.2 hb)⟩
    · refine ⟨by rw [hp.idx]; omega, by rw [hc.lastIndex]; omega, fun rows hr => ?_⟩
      have hr' : s'.chain.take i = (rows.take i).map finVec := by
        rw [List.map_take, ← hr, List.take_take]; congr 1; omega
      obtain ⟨q1, q2⟩ := h3 _ (hpre ▸ hr')
      rw [List.take_take, min_eq_left h2.le] at q1
      have hrl : i < rows.length := by
        have := congrArg List.length hr
        simp only [List.length_take, List.length_map] at this
        omega
      have hu := hc.update
      rw [pySlice, h1, hr', ← List.map_drop] at hu
      have hm := update_moments hn (r1 := rows.take s.cov.lastIndex) (c' := s'.cov)
        (by
          intro h0
          have := congrArg List.length h0
          simp only [List.length_drop, List.length_take, List.length_nil] at this
          omega) q1 hu
      have he : rows.take s.cov.lastIndex ++ (rows.take i).drop s.cov.lastIndex = rows.take i := by
        have := List.take_append_drop s.cov.lastIndex (rows.take i)
        rwa [List.take_take, min_eq_left h2.le] at this
      rw [he] at hm
      refine ⟨?_, fun r hr => ?_⟩
      · rw [hc.lastIndex, if_neg]
        · exact hm
        · intro h0
          have := congrArg List.length h0
          simp only [List.length_take, List.length_nil] at this
          omega
      · rw [hp.adaptLog, if_pos ha, List.mem_append, List.mem_singleton] at hr
        rcases hr with hr | hr
        · obtain ⟨t1, t2⟩ := q2 r hr
          rw [List.take_take, min_eq_left t1.le] at t2
          exact ⟨by omega, t2⟩
        · rw [hr]; exact ⟨by dsimp only; omega, fun _ => hm⟩
  · rw [if_neg ha] at hcov
    refine ⟨by rw [hp.idx]; omega, by rw [hcov]; omega, fun rows hr => ?_⟩
    have hr' : s.chain.take i = (rows.take i).map finVec := by
      rw [← hpre, List.map_take, ← hr, List.take_take]; congr 1; omega
    obtain ⟨q1, q2⟩ := h3 _ hr'
    rw [List.take_take, min_eq_left h2.le] at q1
    rw [hcov, hp.adaptLog, if_neg ha, List.append_nil]
    refine ⟨q1, fun r hr => ?_⟩
    obtain ⟨t1, t2⟩ := q2 r hr
    rw [List.take_take, min_eq_left t1.le] at t2
    exact ⟨by omega, t2⟩

/-- **C12.** In a run from scratch without prior weight (`initqcovn` not set) every adaptation
after the burn-in, in iteration `i`, leaves the covariance object with the sample mean, the unbiased
sample covariance and the number of the chain rows `0, ..., i-1` - whatever the adaptation interval
and however many adaptations there were before. -/
theorem C12_adapted_moments {N m : ℕ} {flags : Fin N → Bool} (hn : 0 < nS flags)
    {U : UserFuns XR N (nS flags) m} {o : Obj XR flags m} {G : Rng σ XR} {L : Lapack XR} {fuel : ℕ}
    {rng : σ} {out : RunOut XR σ flags m}
    (h : runSimulation U G L fuel o rng false = .ok out) (hq : o.opts.initqcovn = none)
    {rows : List (Fin (nS flags) → ℝ)} (hrows : out.results.chain = rows.map finVec) :
    ∀ r ∈ out.final.adaptLog, o.opts.burnintime ≤ r.at_ →
      r.after.meanchain = some (finVec (sampleMean (rows.take r.at_))) ∧
      r.after.covchain = some (finMat (sampleCov (rows.take r.at_))) ∧
      r.after.wsum = some (.fin r.at_) ∧ r.at_ < rows.length := by
  obtain ⟨o1, I, s0, hst, rfl, hc0, h1, h2, hch, hinit⟩ := run_cov h
  obtain ⟨_, _, hci, hchain, _⟩ := setup_fresh h1
  obtain ⟨_, _, c1, _, _, c4, _⟩ := initCovState_ok hinit
  have hq' : out.init.opts.initqcovn = none := by
    rw [hst.init.opts, hst.opts]; exact hq
  obtain ⟨_, s1, ⟨hI, hlen⟩, hfin⟩ := executeSimulator_inv
    (P := fun i s => MomentInv out.init.opts.burnintime i s ∧
      s.chain.length = out.init.opts.nsimu.toNat)
    ⟨⟨by simp [loopStart, hci], by simp [loopStart, hc0, c4], fun rows _ => by
      simp [loopStart, hc0, c4, c1, hq', hst.adaptLog]⟩, by simp [loopStart, hchain, zeroRows]⟩
    (fun i a b p hi _ hP hp => ⟨hP.1.step hn hi hp, by rw [hp.chain, List.length_set, hP.2]⟩) h2
  obtain ⟨hidx, _, h3⟩ := hI
  intro r hr hb
  have hbt : out.init.opts.burnintime = o.opts.burnintime := by rw [hst.init.opts, hst.opts]; rfl
  rw [← hbt] at hb
  rw [hfin] at hr hch
  dsimp only at hr hch
  obtain ⟨t1, t2⟩ := (h3 rows (by rw [← hrows, hch]; exact List.take_of_length_le hlen.le)).2 r hr
  obtain ⟨e1, e2, e3⟩ := t2 hb
  have hl : rows.length = out.init.opts.nsimu.toNat := by
    rw [← hlen, ← hch, hrows, List.length_map]
  have hlt : r.at_ < rows.length := by rw [hl]; exact t1
  rw [List.length_take, min_eq_left hlt.le] at e3
  exact ⟨e1, e2, e3, hlt⟩

/-- a Metropolis proposal from a finite point with a finite factor and finite draws is finite -/
theorem propose_finite {N m : ℕ} {E : Env XR σ N n m} {s : SimState XR σ N n m}
    {p : Proposal XR σ N n m} (h : propose E s = .ok p) (hnt : E.opts.ntry ≤ 1)
    {t z : Fin n → ℝ} {R : Fin n → Fin n → ℝ} (ht : s.oldSet.theta = finVec t)
    (hR : s.cov.R = finMat R) (hz : (E.rng.randn n s.world.rng).1 = finVec z) :
    ∃ t', p.newSet.theta = finVec t' := by
  have hc : (fun j => s.oldSet.theta j + vecMat (E.rng.randn n s.world.rng).1 s.cov.R j) =
      finVec fun j => t j + ∑ i, z i * R i j := by
    funext j
    rw [ht, hR, hz]
    simp [vecMat, finVec, finMat]
  unfold propose at h
  obtain ⟨⟨r, z'⟩, h1, h⟩ := bind_ok.1 h
  dsimp only at h
  rw [if_neg (by omega)] at h
  cases h
  refine ⟨fun j => t j + ∑ i, z i * R i j, ?_⟩
  dsimp only
  rw [← hc]
  unfold runMetropolisStep sampleCandidate at h1
  dsimp only at h1
  split at h1
  · cases h1; rfl
  · obtain ⟨_, _, h1⟩ := bind_ok.1 h1
    cases h1; rfl

/-- invariant of the run of the example -/
def FiniteRows {N m : ℕ} (R : Fin n → Fin n → ℝ) (i : ℕ) (s : SimState XR σ N n m) : Prop :=
  (i ≤ 2 → s.cov.R = finMat R) ∧ (∃ t, s.oldSet.theta = finVec t) ∧
    (∀ row ∈ s.chain, ∃ r, row = finVec r) ∧ (i ≤ 2 → s.iiadapt + 1 = i) ∧
    (2 < i → s.adaptLog ≠ [])

/-- the run of the example has three finite rows and an adaptation in iteration 2 -/
theorem XRun.finite_run (L : Lapack XR) (ad : Bool) {v : ℝ} (hv : 0 ≤ v) (e : ℝ) :
    ∃ (out : RunOut XR Unit XRun.flags 1) (rows : List (Fin (nS XRun.flags) → ℝ)),
    runSimulation XRun.user XRun.rng L 0 (XRun.obj XRun.args ad v e) () false = .ok out ∧
    out.results.chain = rows.map finVec ∧ out.final.adaptLog ≠ [] ∧
    out.init.cov.qcov = finMat fun _ _ => v := by
  obtain ⟨out, h⟩ := XRun.run_ok L ad v e
  obtain ⟨o1, I, s0, hst, rfl, hc0, h1, h2, hch, hinit⟩ := run_cov h
  obtain ⟨_, _, hci, hchain, _, _, _, hjs, _⟩ := setup_fresh h1
  obtain rfl := hjs rfl
  obtain ⟨_, ⟨R, hR, hR'⟩, _⟩ := initCovState_ok hinit
  have hopts : out.init.opts = checkDependentSimulationOptions (XRun.obj XRun.args ad v e).opts false := by
    rw [hst.init.opts]; rfl
  have hRf : s0.cov.R = finMat fun _ _ => Real.sqrt v := by
    rw [hc0]
    rw [if_neg (by rw [hopts]; simp [checkDependentSimulationOptions, XRun.obj, newObj, XRun.args,
      defineSimulationOptions])] at hR'
    rw [hR'.1]
    change (ixRestrict _ _ >>= fun _ => _) = _ at hR
    unfold ixRestrict at hR
    rw [dif_pos fun i => (parindOf XRun.flags i).2, ok_bind] at hR
    have := congrArg Prod.fst (Except.ok.inj hR)
    dsimp only at this
    rw [← this]
    funext i j
    have hij : ∀ a b : Fin 1, a = b := fun a b => Subsingleton.elim a b
    simp [diagflat, finMat, hij _ (0 : Fin 1), sqrt_fin hv]
  have hqc : out.init.cov.qcov = finMat fun _ _ => v := by
    change (ixRestrict _ _ >>= fun _ => _) = _ at hR
    unfold ixRestrict at hR
    rw [dif_pos fun i => (parindOf XRun.flags i).2, ok_bind] at hR
    have := congrArg Prod.snd (Except.ok.inj hR)
    dsimp only at this
    rw [← this]
    funext i j
    have hij : ∀ a b : Fin 1, a = b := fun a b => Subsingleton.elim a b
    simp [diagflat, finMat, hij _ (0 : Fin 1)]
  have hth : s0.oldSet.theta = finVec fun _ => 0 := by
    rw [hst.oldSet, hst.init.theta]; rfl
  obtain ⟨_, s1, hI, hfin⟩ := executeSimulator_inv (P := fun i s => FiniteRows (fun _ _ => Real.sqrt v) i s)
    ⟨fun _ => hRf, ⟨_, hth⟩, fun row hr => by
        change row ∈ s0.chain at hr
        rw [hchain] at hr
        rcases List.mem_or_eq_of_mem_set hr with hr | hr
        · obtain ⟨_, rfl⟩ := List.mem_replicate.1 hr
          exact ⟨fun _ => 0, by funext i; simp [finVec]⟩
        · rw [hr, ← hst.oldSet]; exact ⟨_, hth⟩, fun _ => rfl, by omega⟩
    (fun i a b p hi hi' hP hp => by
      obtain ⟨q1, ⟨t, q2⟩, q3, q4, q5⟩ := hP
      have hi3 : i < 3 := by
        have : i < out.init.opts.nsimu.toNat := hi'
        rw [hopts] at this; exact this
      obtain ⟨t', ht'⟩ := propose_finite hp.prop (by
        change out.init.opts.ntry.toNat ≤ 1
        rw [hopts]; exact le_rfl) q2 (q1 (by omega)) (z := fun _ => 1) rfl
      have hcur : ∃ t, (currentSet a p).theta = finVec t := by
        unfold currentSet
        split
        · exact ⟨_, ht'⟩
        · exact ⟨_, q2⟩
      have hint : (runOpts out.init.opts (XRun.obj XRun.args ad v e).extra).adaptint = 2 := by
        change out.init.opts.adaptint = 2
        rw [hopts]; rfl
      refine ⟨fun h => ?_, ?_, ?_, ?_, ?_⟩
      · have hc := hp.cov
        rw [if_neg (by unfold adaptNow; rw [hint]; have := q4 (by omega); omega)] at hc
        rw [hc]; exact q1 (by omega)
      · rw [hp.old]; exact hcur
      · intro row hr
        rw [hp.chain] at hr
        rcases List.mem_or_eq_of_mem_set hr with hr | hr
        · exact q3 row hr
        · rw [hr]; exact hcur
      · intro h
        rw [hp.iiadapt, if_neg (by unfold adaptNow; rw [hint]; have := q4 (by omega); omega)]
        have := q4 (by omega)
        omega
      · intro h
        rw [hp.adaptLog, if_pos (by unfold adaptNow; rw [hint]; have := q4 (by omega); omega)]
        simp) h2
  obtain ⟨_, _, q3, _, q5⟩ := hI
  have hns : (runOpts out.init.opts (XRun.obj XRun.args ad v e).extra).nsimu = 3 := by
    change out.init.opts.nsimu.toNat = 3
    rw [hopts]; rfl
  rw [hfin] at hch
  choose! f hf using q3
  refine ⟨out, s1.chain.map f, h, ?_, by rw [hfin]; exact q5 (by dsimp only; rw [hns]; norm_num), hqc⟩
  rw [hch, List.map_map]
  dsimp only
  conv_lhs => rw [← List.map_id s1.chain]
  exact List.map_congr_left fun row hr => hf row hr

/-- the hypotheses of C12 hold for that run -/
example (L : Lapack XR) : ∃ (out : RunOut XR Unit XRun.flags 1)
      (rows : List (Fin (nS XRun.flags) → ℝ)),
    runSimulation XRun.user XRun.rng L 0 (XRun.obj XRun.args) () false = .ok out ∧
    out.results.chain = rows.map finVec ∧ out.final.adaptLog ≠ [] ∧
    (XRun.obj XRun.args).opts.initqcovn = none := by
  obtain ⟨out, rows, h1, h2, h3, _⟩ := XRun.finite_run L true zero_le_one 1
  exact ⟨out, rows, h1, h2, h3, rfl⟩

end Verif
