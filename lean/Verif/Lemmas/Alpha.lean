import Verif.Lemmas.Basic
import Mathlib.Tactic.Ring

/-! # `alphafun`: the depth bound is immaterial, number of calls -/

namespace Verif
set_option linter.unusedSectionVars false
variable {F σ : Type} [PyFloat F] {N n m : ℕ}

theorem alphaLoop_congr {rec1 rec2 : List (ParamSet F n m) → ℕ → Except PyErr (F × ℕ)}
    {path : List (ParamSet F n m)} {kks : List ℕ}
    (h : ∀ kk ∈ kks, ∀ c, rec1 (path.take (kk + 2)) c = rec2 (path.take (kk + 2)) c ∧
      rec1 (path.reverse.take (kk + 2)) c = rec2 (path.reverse.take (kk + 2)) c)
    (a1 a2 : F) (cnt : ℕ) :
    alphaLoop rec1 path kks a1 a2 cnt = alphaLoop rec2 path kks a1 a2 cnt := by
  induction kks generalizing a1 a2 cnt with
  | nil => rfl
  | cons kk kks ih =>
    have ih' := ih fun k hk => h k (List.mem_cons_of_mem _ hk)
    unfold alphaLoop
    rw [(h kk (by simp) cnt).1]
    congr 1
    funext t1
    rw [(h kk (by simp) t1.2).2]
    simp only [ih']

/-- Any two depth bounds larger than the length of the path give the same result. -/
theorem alphaDepth_eq (invR : List (Mat F n)) : ∀ (d1 d2 : ℕ) (path : List (ParamSet F n m))
    (cnt : ℕ), path.length < d1 → path.length < d2 →
    alphaDepth invR d1 path cnt = alphaDepth invR d2 path cnt := by
  intro d1
  induction d1 with
  | zero => intro d2 path cnt h; omega
  | succ d1 ih =>
    intro d2 path cnt h1 h2
    obtain ⟨d2, rfl⟩ : ∃ k, d2 = k + 1 := ⟨d2 - 1, by omega⟩
    unfold alphaDepth
    rw [alphaLoop_congr (rec2 := alphaDepth invR d2)]
    intro kk hk c
    rw [List.mem_range] at hk
    constructor
    · apply ih <;> rw [List.length_take] <;> omega
    · apply ih <;> rw [List.length_take, List.length_reverse] <;> omega

/-- `alphafun` satisfies the recursion of the source. -/
theorem alphafun_eq (path : List (ParamSet F n m)) (invR : List (Mat F n)) (cnt : ℕ) :
    alphafun path invR cnt = (do
      let r ← alphaLoop (fun p c => alphafun p invR c) path (List.range (path.length - 1 - 1))
        (lit 1) (lit 1) (cnt + 1)
      let al ← alphaTail path invR r.1
      .ok (al, r.2)) := by
  conv_lhs => unfold alphafun alphaDepth
  rw [alphaLoop_congr (rec2 := fun p c => alphafun p invR c)]
  intro kk hk c
  rw [List.mem_range] at hk
  constructor
  · apply alphaDepth_eq <;> rw [List.length_take] <;> omega
  · apply alphaDepth_eq <;> rw [List.length_take, List.length_reverse] <;> omega

theorem alphaLoop_count {rec : List (ParamSet F n m) → ℕ → Except PyErr (F × ℕ)}
    {path : List (ParamSet F n m)} {T : ℕ → ℕ} {j l : ℕ}
    (h : ∀ kk, kk < j + l → ∀ c r, (rec (path.take (kk + 2)) c = .ok r → c < r.2 ∧ r.2 ≤ c + T kk) ∧
      (rec (path.reverse.take (kk + 2)) c = .ok r → c < r.2 ∧ r.2 ≤ c + T kk))
    {a1 a2 : F} {cnt : ℕ} {r : Option (F × F) × ℕ}
    (hr : alphaLoop rec path (List.range' j l) a1 a2 cnt = .ok r) :
    cnt ≤ r.2 ∧ r.2 ≤ cnt + 2 * ((List.range' j l).map T).sum := by
  induction l generalizing j a1 a2 cnt with
  | zero => cases hr; simp
  | succ l ih =>
    rw [List.range'_succ] at hr ⊢
    unfold alphaLoop at hr
    rw [bind_ok] at hr; obtain ⟨t1, h1, hr⟩ := hr
    rw [bind_ok] at hr; obtain ⟨t2, h2, hr⟩ := hr
    have b1 := (h j (by omega) _ _).1 h1
    have b2 := (h j (by omega) _ _).2 h2
    rw [List.map_cons, List.sum_cons]
    dsimp only at hr
    split at hr
    · cases hr
      dsimp only
      omega
    · have := ih (fun kk hk => h kk (by omega)) hr
      omega

theorem sum_three_pow (l : ℕ) : 1 + 2 * ((List.range l).map fun k => 3 ^ k).sum = 3 ^ l := by
  induction l with
  | zero => rfl
  | succ l ih =>
    rw [List.range_succ, List.map_append, List.sum_append, pow_succ, ← ih]
    simp only [List.map_cons, List.map_nil, List.sum_cons, List.sum_nil]
    rw [← ih]; ring

/-- Number of calls made for one evaluation at a path with `l + 1` proposals. -/
theorem alphafun_count (invR : List (Mat F n)) : ∀ (l : ℕ) (path : List (ParamSet F n m))
    (cnt : ℕ) (r : F × ℕ), path.length ≤ l + 2 →
    alphafun path invR cnt = .ok r → cnt < r.2 ∧ r.2 ≤ cnt + 3 ^ l := by
  intro l
  induction l using Nat.strong_induction_on with
  | _ l ih =>
    intro path cnt r hl hr
    rw [alphafun_eq, bind_ok] at hr
    obtain ⟨t, ht, hr⟩ := hr
    rw [bind_ok] at hr
    obtain ⟨al, -, hr⟩ := hr
    cases hr
    rw [List.range_eq_range'] at ht
    have := alphaLoop_count (T := fun k => 3 ^ k) (j := 0) (fun kk hk c r => ⟨fun h =>
      ih kk (by omega) _ c r (by rw [List.length_take]; omega) h, fun h =>
      ih kk (by omega) _ c r (by rw [List.length_take]; omega) h⟩) ht
    rw [← List.range_eq_range'] at this
    have h3 := sum_three_pow (path.length - 1 - 1)
    have h4 : 3 ^ (path.length - 1 - 1) ≤ 3 ^ l := Nat.pow_le_pow_right (by omega) (by omega)
    dsimp only
    omega

/-! ### The recorded `alpha` of the sets of a path is not used -/

/-- forget the recorded acceptance probability -/
def ParamSet.strip (s : ParamSet F n m) : ParamSet F n m := { s with alpha := none }

theorem pyGet_map {α β : Type} (f : α → β) (l : List α) (i : ℕ) :
    pyGet (l.map f) i = (pyGet l i).map f := by
  unfold pyGet
  rw [List.getElem?_map]
  cases l[i]? <;> rfl

theorem nthStage_strip (k : ℕ) (path : List (ParamSet F n m)) (invR : List (Mat F n)) :
    nthStageLogProposalRatio k (path.map ParamSet.strip) invR = nthStageLogProposalRatio k path invR := by
  unfold nthStageLogProposalRatio
  simp only [List.length_map, pyGet_map]
  split
  · rfl
  · cases pyGet invR k with
    | error e => rfl
    | ok iR =>
      cases pyGet path 0 with
      | error e => rfl
      | ok y1 =>
        cases pyGet path (k + 1) with
        | error e => rfl
        | ok y2 =>
          cases pyGet path (path.length - 1 - 1 + 1) with
          | error e => rfl
          | ok y3 =>
            cases pyGet path (path.length - 1 - 1 - k) with
            | error e => rfl
            | ok y4 => rfl

theorem alphaFinal_strip (path : List (ParamSet F n m)) (invR : List (Mat F n)) (a1 a2 : F) :
    alphaFinal (path.map ParamSet.strip) invR a1 a2 = alphaFinal path invR a1 a2 := by
  unfold alphaFinal
  simp only [List.length_map, pyGet_map, nthStage_strip]
  cases pyGet path 0 with
  | error e => rfl
  | ok x1 =>
    cases pyGet path (path.length - 1) with
    | error e => rfl
    | ok x2 => rfl

theorem alphaLoop_strip {rec : List (ParamSet F n m) → ℕ → Except PyErr (F × ℕ)}
    {path : List (ParamSet F n m)} (hrec : ∀ p c, rec (p.map ParamSet.strip) c = rec p c)
    (kks : List ℕ) (a1 a2 : F) (cnt : ℕ) :
    alphaLoop rec (path.map ParamSet.strip) kks a1 a2 cnt = alphaLoop rec path kks a1 a2 cnt := by
  induction kks generalizing a1 a2 cnt with
  | nil => rfl
  | cons k kks ih =>
    unfold alphaLoop
    rw [← List.map_take, hrec]
    congr 1
    funext t1
    rw [← List.map_reverse, ← List.map_take, hrec]
    simp only [ih]

theorem alphaDepth_strip (invR : List (Mat F n)) (d : ℕ) (path : List (ParamSet F n m)) (cnt : ℕ) :
    alphaDepth invR d (path.map ParamSet.strip) cnt = alphaDepth invR d path cnt := by
  induction d generalizing path cnt with
  | zero => rfl
  | succ d ih =>
    unfold alphaDepth
    rw [alphaLoop_strip ih, List.length_map]
    congr 1
    funext r
    have : alphaTail (path.map ParamSet.strip) invR r.1 = alphaTail path invR r.1 := by
      unfold alphaTail
      split
      · rfl
      · exact alphaFinal_strip _ _ _ _
    rw [this]

theorem alphafun_strip (path : List (ParamSet F n m)) (invR : List (Mat F n)) (cnt : ℕ) :
    alphafun (path.map ParamSet.strip) invR cnt = alphafun path invR cnt := by
  unfold alphafun
  rw [alphaDepth_strip, List.length_map]

/-! ### One round of the delayed-rejection loop -/

/-- the part of a round that follows the evaluation of the acceptance probability -/
def drRound (P : Problem F N n m) (G : Rng σ F) (old : ParamSet F n m) (sigma2 : Vec F m)
    (RDR : Slot (List (Mat F n))) (invR : Option (List (Mat F n))) (left itry : ℕ)
    (path : List (ParamSet F n m)) (o : DrOut F σ N n m) (next : ParamSet F n m)
    (test : Bool × World F σ N) (steps : ℕ) : Except PyErr (DrOut F σ N n m) :=
  Except.bind (pyGet o.count.iacce itry) fun oi =>
  Except.bind (pySet o.count.iacce itry (oi + if test.1 then 1 else 0)) fun ia =>
    let out : DrOut F σ N n m := ⟨test.1, some (if test.1 then next else old, false), test.2,
      ⟨ia, steps⟩, o.tries ++ [⟨next.theta, false, test.1⟩]⟩
    if test.1 then .ok out
    else drLoop P G old sigma2 RDR invR left (itry + 1) (path ++ [next]) out

theorem drLoop_succ (P : Problem F N n m) (G : Rng σ F) (old : ParamSet F n m) (sigma2 : Vec F m)
    (RDR : Slot (List (Mat F n))) (invR : Option (List (Mat F n))) (left itry : ℕ)
    (path : List (ParamSet F n m)) (o : DrOut F σ N n m) :
    drLoop P G old sigma2 RDR invR (left + 1) itry path o =
      Except.bind (RDR.index itry) fun R =>
      if isOutside (sampleCandidate G old.theta R o.world).1 P.lower P.upper then
        drLoop P G old sigma2 RDR invR left (itry + 1)
          (path ++ [setOutsideBounds ⟨(sampleCandidate G old.theta R o.world).1,
            fun _ => PyFloat.inf, lit 0, sigma2, none⟩])
          { o with outSet := some (old, true),
                   world := (sampleCandidate G old.theta R o.world).2.2,
                   tries := o.tries ++ [⟨(sampleCandidate G old.theta R o.world).1, true, false⟩] }
      else
        Except.bind (evaluateSos P (sampleCandidate G old.theta R o.world).1
          (sampleCandidate G old.theta R o.world).2.2) fun e =>
        Except.bind (orRaise invR .typeError) fun inv =>
        Except.bind (alphafun (path ++ [⟨(sampleCandidate G old.theta R o.world).1, e.1,
          P.prior (sampleCandidate G old.theta R o.world).1, sigma2, none⟩]) inv o.count.steps) fun ac =>
        drRound P G old sigma2 RDR invR left itry path o
          ⟨(sampleCandidate G old.theta R o.world).1, e.1,
            P.prior (sampleCandidate G old.theta R o.world).1, sigma2, some ac.1⟩
          (posteriorRatioTest G ac.1 e.2) ac.2 := rfl

end Verif
