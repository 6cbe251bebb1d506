import Verif.Lemmas.Alpha
import Verif.Lemmas.XR
import Verif.Spec.Points
import Mathlib.Tactic.FieldSimp
import Mathlib.Tactic.Linarith
import Mathlib.Tactic.Positivity

/-! # `alphafun` over the extended reals -/

namespace Verif
set_option linter.unusedSectionVars false
open Finset XR
variable {n m : ℕ}

/-- `ninf` outside, the log density inside -/
def logOf (e : Option ℝ) : XR :=
  match e with
  | none => .ninf
  | some e => .fin e

theorem Represents.energy_eq (hm : 0 < m) {s : ParamSet XR n m} {p : Point n}
    (h : Represents s p) :
    logLike s.ss s.sigma2 + lit (-1/2) * s.prior = logOf p.logpost := by
  obtain ⟨v, hv, hs, he⟩ := h.energy
  rw [hs]
  cases hp : p.logpost with
  | none =>
    rw [hp] at he
    obtain ⟨h1, h2⟩ := he
    rw [h1, h2]
    unfold logLike
    rw [vsum_pinf hm (fun i => pinf_div_pos (hv i)), lit_eq, neg_mul_pinf (by norm_num)]
    rfl
  | some e =>
    rw [hp] at he
    obtain ⟨q, r, h1, h2, h3⟩ := he
    rw [h1, h2]
    unfold logLike logOf
    simp only [fin_div (hv _).ne', vsum_fin, lit_eq, fin_mul, fin_add, fin_inj]
    rw [h3]; push_cast; ring

/-- `-1/2 ‖(y - x) W‖²` -/
noncomputable def quad (W : Fin n → Fin n → ℝ) (x y : Fin n → ℝ) : ℝ :=
  -(1 / 2) * ∑ j, (∑ i, (y i - x i) * W i j) ^ 2

theorem quad_symm (W : Fin n → Fin n → ℝ) (x y : Fin n → ℝ) : quad W x y = quad W y x := by
  unfold quad
  congr 1
  refine Finset.sum_congr rfl fun j _ => ?_
  have : ∑ i, (x i - y i) * W i j = -∑ i, (y i - x i) * W i j := by
    rw [← Finset.sum_neg_distrib]
    exact Finset.sum_congr rfl fun i _ => by ring
  rw [this]; ring

/-- path of the code through the sets `S 0, …, S l` -/
def pathOf {α : Type} (S : ℕ → α) (l : ℕ) : List α := (List.range (l + 1)).map S

theorem pathOf_length {α : Type} (S : ℕ → α) (l : ℕ) : (pathOf S l).length = l + 1 := by
  simp [pathOf]

theorem pathOf_get {α : Type} (S : ℕ → α) {l k : ℕ} (h : k ≤ l) : pyGet (pathOf S l) k = .ok (S k) := by
  rw [pyGet_ok]
  simp [pathOf, h]

theorem pathOf_take {α : Type} (S : ℕ → α) {l k : ℕ} (h : k ≤ l) :
    (pathOf S l).take (k + 1) = pathOf S k := by
  unfold pathOf
  rw [← List.map_take, List.take_range, min_eq_left (by omega)]

theorem pathOf_reverse {α : Type} (S : ℕ → α) (l : ℕ) :
    (pathOf S l).reverse = pathOf (fun k => S (l - k)) l := by
  unfold pathOf
  apply List.ext_getElem
  · simp
  · intro i h1 h2
    simp

/-- log ratio of the proposal densities of stage `k + 1` -/
noncomputable def logProp (W : ℕ → Fin n → Fin n → ℝ) (P : ℕ → Point n) (l k : ℕ) : ℝ :=
  if k = l then 0 else
    quad (W k) (P (l + 1)).theta (P (l - k)).theta - quad (W k) (P 0).theta (P (k + 1)).theta

theorem nthStage_eq {invR : List (Mat XR n)} {W : ℕ → Fin n → Fin n → ℝ} {l : ℕ}
    (hW : ∀ k < l, invR[k]? = some fun i j => .fin (W k i j))
    {S : ℕ → ParamSet XR n m} {P : ℕ → Point n} (hS : ∀ k ≤ l + 1, Represents (S k) (P k))
    {k : ℕ} (hk : k ≤ l) :
    nthStageLogProposalRatio k (pathOf S (l + 1)) invR = .ok (.fin (logProp W P l k)) := by
  unfold nthStageLogProposalRatio
  rw [pathOf_length]
  by_cases h : k = l
  · subst h; simp [logProp]
  · have h1 : ¬ (l + 1 + 1 - 1 - 1 = k) := by omega
    rw [if_neg h1]
    have e1 : pyGet invR k = .ok fun i j => .fin (W k i j) := pyGet_ok.2 (hW k (by omega))
    rw [show l + 1 + 1 - 1 - 1 = l by omega, e1, pathOf_get S (by omega), pathOf_get S (by omega),
      pathOf_get S (by omega), pathOf_get S (by omega)]
    change Except.ok _ = _
    rw [(hS 0 (by omega)).theta, (hS (k+1) (by omega)).theta, (hS (l+1) (by omega)).theta,
      (hS (l-k) (by omega)).theta]
    simp only [fin_sub, vecMat_fin, normSq_fin, lit_eq, fin_mul]
    rw [logProp, if_neg h, quad, quad]
    congr 2
    simp only [pow_two]
    push_cast; ring

theorem fold_logProp {invR : List (Mat XR n)} {path : List (ParamSet XR n m)} {z : ℕ → ℝ} :
    ∀ (l : List ℕ) (_ : ∀ k ∈ l, nthStageLogProposalRatio k path invR = .ok (.fin (z k)))
      (y0 : XR) (a : ℝ),
    l.foldlM (fun y kk => do let t ← nthStageLogProposalRatio kk path invR; Except.ok (y + t))
      (y0 + .fin a) = (.ok (y0 + .fin (a + (l.map z).sum)) : Except PyErr XR)
  | [], _, y0, a => by simp; rfl
  | k :: l, h, y0, a => by
    have hk := h k (by simp)
    rw [List.foldlM_cons, hk]
    change (List.foldlM _ (y0 + .fin a + .fin (z k)) l) = _
    rw [add_fin_fin, fold_logProp l (fun k hk => h k (List.mem_cons_of_mem _ hk))]
    simp [add_assoc]

theorem add_fin_zero (y : XR) : y + .fin 0 = y := by
  cases y with
  | nan => rfl
  | ninf => rfl
  | pinf => rfl
  | fin x => simp

/-- total log ratio of the proposal densities -/
noncomputable def logProps (W : ℕ → Fin n → Fin n → ℝ) (P : ℕ → Point n) (l : ℕ) : ℝ :=
  ∑ k ∈ range (l + 1), logProp W P l k

theorem list_range_sum (f : ℕ → ℝ) (l : ℕ) : ((List.range l).map f).sum = ∑ k ∈ range l, f k := by
  induction l with
  | zero => rfl
  | succ l ih => rw [List.range_succ, List.map_append, List.sum_append, ih, Finset.sum_range_succ]; simp

theorem alphaFinal_eq (hm : 0 < m) {invR : List (Mat XR n)} {W : ℕ → Fin n → Fin n → ℝ} {l : ℕ}
    (hW : ∀ k < l, invR[k]? = some fun i j => .fin (W k i j))
    {S : ℕ → ParamSet XR n m} {P : ℕ → Point n} (hS : ∀ k ≤ l + 1, Represents (S k) (P k))
    (a1 a2 : XR) :
    alphaFinal (pathOf S (l + 1)) invR a1 a2 = .ok (pyMin (.fin 1)
      (PyFloat.exp (logOf (P (l + 1)).logpost - logOf (P 0).logpost + .fin (logProps W P l))
        * a2 * (.fin 1 / a1))) := by
  unfold alphaFinal
  rw [pathOf_length, pathOf_get S (by omega), pathOf_get S (by omega)]
  have e : ∀ y0 : XR, (List.range (l + 1 + 1 - 1)).foldlM
      (fun y kk => do let t ← nthStageLogProposalRatio kk (pathOf S (l + 1)) invR; Except.ok (y + t))
      y0 = (.ok (y0 + .fin (logProps W P l)) : Except PyErr XR) := by
    intro y0
    have := fold_logProp (z := logProp W P l) (List.range (l + 1))
      (fun k hk => nthStage_eq hW hS (by rw [List.mem_range] at hk; omega)) y0 0
    rw [add_fin_zero, zero_add, list_range_sum] at this
    exact this
  change Except.bind (List.foldlM _ _ (List.range (l + 1 + 1 - 1))) _ = _
  rw [e]
  change Except.ok _ = _
  have c1 := (hS (l + 1) le_rfl).energy_eq hm
  have c2 := (hS 0 (by omega)).energy_eq hm
  unfold calcLogPosteriorRatio
  rw [show l + 1 + 1 - 1 = l + 1 by omega, c1, c2]
  simp

/-- The acceptance probability, given the two products. -/
noncomputable def alphaVal (W : ℕ → Fin n → Fin n → ℝ) (P : ℕ → Point n) (l : ℕ) (a1 a2 : ℝ) : ℝ :=
  if a2 = 0 then 0 else
    match (P 0).logpost, (P (l + 1)).logpost with
    | none, _ => 1
    | some _, none => if a1 = 0 then 1 else 0
    | some e0, some e1 =>
        if a1 = 0 then 1 else min 1 (Real.exp (e1 - e0 + logProps W P l) * a2 / a1)

theorem alphaVal_mem (W : ℕ → Fin n → Fin n → ℝ) (P : ℕ → Point n) (l : ℕ) {a1 a2 : ℝ}
    (h1 : 0 ≤ a1) (h2 : 0 ≤ a2) : 0 ≤ alphaVal W P l a1 a2 ∧ alphaVal W P l a1 a2 ≤ 1 := by
  unfold alphaVal
  split
  · simp
  · split
    · simp
    · split <;> simp
    · split
      · simp
      · exact ⟨le_min (by norm_num) (by positivity), min_le_left _ _⟩

theorem alphaFinal_val (hm : 0 < m) {invR : List (Mat XR n)} {W : ℕ → Fin n → Fin n → ℝ} {l : ℕ}
    (hW : ∀ k < l, invR[k]? = some fun i j => .fin (W k i j))
    {S : ℕ → ParamSet XR n m} {P : ℕ → Point n} (hS : ∀ k ≤ l + 1, Represents (S k) (P k))
    {a1 a2 : ℝ} (h1 : 0 ≤ a1) (h2 : 0 < a2) :
    alphaFinal (pathOf S (l + 1)) invR (.fin a1) (.fin a2) = .ok (.fin (alphaVal W P l a1 a2)) := by
  rw [alphaFinal_eq hm hW hS]
  congr 1
  unfold alphaVal
  rw [if_neg h2.ne']
  have d : a1 ≠ 0 → (XR.fin 1 / XR.fin a1) = .fin (1 / a1) := fun h => fin_div h
  rcases h0 : (P 0).logpost with _ | e0 <;> rcases h3 : (P (l+1)).logpost with _ | e1 <;> dsimp only
  · -- both outside: nan
    rfl
  · -- from outside to inside: +inf
    change pyMin _ (XR.pinf * XR.fin a2 * _) = _
    rw [pinf_mul_pos h2]
    by_cases h : a1 = 0
    · rw [h, fin_div_zero one_pos]; rfl
    · have : 0 < 1 / a1 := by positivity
      rw [d h, pinf_mul_pos this]; rfl
  · change pyMin _ (XR.fin 0 * XR.fin a2 * _) = _
    rw [fin_mul, zero_mul]
    by_cases h : a1 = 0
    · rw [h, fin_div_zero one_pos, zero_mul_pinf, if_pos rfl]; rfl
    · rw [d h, if_neg h, fin_mul, zero_mul, pyMin_one_fin]; simp
  · change pyMin _ (PyFloat.exp (XR.fin e1 - XR.fin e0 + _) * XR.fin a2 * _) = _
    rw [fin_sub, fin_add, exp_fin, fin_mul]
    by_cases h : a1 = 0
    · rw [h, fin_div_zero one_pos, pos_mul_pinf (by positivity), if_pos rfl]; rfl
    · rw [d h, if_neg h, fin_mul, pyMin_one_fin, mul_one_div]

/-- The loop over the earlier stages. `a k`, `b k` are the values of the recursive calls on the
first `k + 2` sets forwards and backwards, `ca k`, `cb k` the numbers of calls they make. -/
theorem alphaLoop_val {rec : List (ParamSet XR n m) → ℕ → Except PyErr (XR × ℕ)}
    {path : List (ParamSet XR n m)} {a b : ℕ → ℝ} {ca cb : ℕ → ℕ} {L : ℕ}
    (ha : ∀ k < L, ∀ c, rec (path.take (k + 2)) c = .ok (.fin (a k), c + ca k))
    (hb : ∀ k < L, ∀ c, rec (path.reverse.take (k + 2)) c = .ok (.fin (b k), c + cb k))
    (d : ℕ) : ∀ (j : ℕ), j + d = L → ∀ (a1 a2 : ℝ) (cnt : ℕ), a2 ≠ 0 →
    ∃ c, (∀ cnt, alphaLoop rec path (List.range' j d) (.fin a1) (.fin a2) cnt =
      .ok (if a2 * ∏ k ∈ Ico j L, (1 - b k) = 0 then none else
        some (.fin (a1 * ∏ k ∈ Ico j L, (1 - a k)), .fin (a2 * ∏ k ∈ Ico j L, (1 - b k))), cnt + c))
      ∧ ∀ e ≤ L, j ≤ e → (∀ k, j ≤ k → k + 1 < e → b k ≠ 1) → (e = L ∨ (j < e ∧ b (e - 1) = 1)) →
        c = ∑ k ∈ Ico j e, (ca k + cb k) := by
  induction d with
  | zero =>
    intro j hj a1 a2 cnt h2
    have : j = L := by omega
    subst this
    refine ⟨0, fun cnt => ?_, fun e he hje _ _ => by rw [show e = j by omega]; simp⟩
    simp [alphaLoop, h2]
  | succ d ih =>
    intro j hj a1 a2 cnt h2
    have hjL : j < L := by omega
    have pa : ∀ f : ℕ → ℝ, ∏ k ∈ Ico j L, f k = f j * ∏ k ∈ Ico (j+1) L, f k := fun f =>
      Finset.prod_eq_prod_Ico_succ_bot hjL f
    rw [pa fun k => 1 - a k, pa fun k => 1 - b k]
    by_cases hz : a2 * (1 - b j) = 0
    · have hz' : a2 * ((1 - b j) * ∏ k ∈ Ico (j+1) L, (1 - b k)) = 0 := by
        rw [← mul_assoc, hz, zero_mul]
      refine ⟨ca j + cb j, fun cnt => ?_, fun e he hje hk hl => ?_⟩
      swap
      · have hbj : b j = 1 := by
          rcases mul_eq_zero.1 hz with h | h
          · exact absurd h h2
          · linarith
        have h1 : ¬ j + 1 < e := fun h => hk j le_rfl h hbj
        have h2 : j < e := by omega
        rw [show e = j + 1 by omega]; simp
      rw [List.range'_succ]
      unfold alphaLoop
      rw [ha j hjL]
      change Except.bind (rec _ _) _ = _
      rw [hb j hjL]
      simp only [Except.bind, lit_eq, fin_sub, fin_mul, fin_beq, Rat.cast_one, Rat.cast_zero]
      rw [hz, if_pos hz', if_pos (by simp), add_assoc]
    · obtain ⟨c, hc, hc'⟩ := ih (j + 1) (by omega) (a1 * (1 - a j)) (a2 * (1 - b j)) cnt hz
      refine ⟨ca j + cb j + c, fun cnt => ?_, ?_⟩
      · rw [List.range'_succ]
        unfold alphaLoop
        rw [ha j hjL]
        change Except.bind (rec _ _) _ = _
        rw [hb j hjL]
        simp only [Except.bind, lit_eq, fin_sub, fin_mul, fin_beq, Rat.cast_one, Rat.cast_zero]
        rw [if_neg (by simpa using hz), hc]
        simp only [mul_assoc, add_assoc]
      · intro e he hje hk hl
        have hbj : b j ≠ 1 := fun h => hz (by rw [h]; ring)
        have hje' : j + 1 ≤ e := by rcases hl with h | h <;> omega
        rw [Finset.sum_eq_sum_Ico_succ_bot (by omega), hc' e he hje'
          (fun k hk1 hk2 => hk k (by omega) hk2)]
        rcases hl with h | ⟨h1, h2⟩
        · exact Or.inl h
        · refine Or.inr ⟨?_, h2⟩
          rcases Nat.lt_or_ge (j + 1) e with h | h
          · exact h
          · rw [show e - 1 = j by omega] at h2
            exact absurd h2 hbj

/-- Value and number of calls of `alphafun`, from those of its recursive calls. -/
theorem alphafun_step (hm : 0 < m) {invR : List (Mat XR n)} {W : ℕ → Fin n → Fin n → ℝ} {l : ℕ}
    (hW : ∀ k < l, invR[k]? = some fun i j => .fin (W k i j))
    {S : ℕ → ParamSet XR n m} {P : ℕ → Point n} (hS : ∀ k ≤ l + 1, Represents (S k) (P k))
    {a b : ℕ → ℝ} {ca cb : ℕ → ℕ}
    (ha : ∀ k < l, 0 ≤ a k ∧ a k ≤ 1 ∧ ∀ c, alphafun (pathOf S (k + 1)) invR c = .ok (.fin (a k), c + ca k))
    (hb : ∀ k < l, 0 ≤ b k ∧ b k ≤ 1 ∧
      ∀ c, alphafun (pathOf (fun i => S (l + 1 - i)) (k + 1)) invR c = .ok (.fin (b k), c + cb k)) :
    ∃ c, (∀ cnt, alphafun (pathOf S (l + 1)) invR cnt =
        .ok (.fin (alphaVal W P l (∏ k ∈ range l, (1 - a k)) (∏ k ∈ range l, (1 - b k))), cnt + c)) ∧
      ∀ e ≤ l, (∀ k, k + 1 < e → b k ≠ 1) → (e = l ∨ (0 < e ∧ b (e - 1) = 1)) →
        c = 1 + ∑ k ∈ range e, (ca k + cb k) := by
  have hlen : (pathOf S (l + 1)).length - 1 - 1 = l := by rw [pathOf_length]; omega
  obtain ⟨c, hc, hc'⟩ := alphaLoop_val (rec := fun p c => alphafun p invR c) (path := pathOf S (l + 1))
    (a := a) (b := b) (ca := ca) (cb := cb) (L := l)
    (fun k hk c => by
      rw [pathOf_take S (by omega)]; exact (ha k hk).2.2 c)
    (fun k hk c => by
      rw [pathOf_reverse, pathOf_take _ (by omega)]; exact (hb k hk).2.2 c)
    l 0 (by omega) 1 1 0 one_ne_zero
  rw [one_mul, ← Finset.range_eq_Ico] at hc
  have p1 : 0 ≤ ∏ k ∈ range l, (1 - a k) := Finset.prod_nonneg fun k hk => by
    have := ha k (Finset.mem_range.1 hk); linarith
  have p2 : 0 ≤ ∏ k ∈ range l, (1 - b k) := Finset.prod_nonneg fun k hk => by
    have := hb k (Finset.mem_range.1 hk); linarith
  refine ⟨1 + c, fun cnt => ?_, fun e he hk hl => by
    rw [hc' e he (Nat.zero_le _) (fun k _ h => hk k h) hl, ← Finset.range_eq_Ico]⟩
  rw [alphafun_eq, hlen, List.range_eq_range', lit_eq, Rat.cast_one, hc]
  change Except.bind (alphaTail _ _ _) _ = _
  by_cases hz : ∏ k ∈ range l, (1 - b k) = 0
  · rw [if_pos hz]
    unfold alphaVal
    rw [if_pos hz]
    simp only [alphaTail, Except.bind, lit_eq, Rat.cast_zero]
    rw [add_assoc]
  · rw [if_neg hz, one_mul]
    have hpos : 0 < ∏ k ∈ range l, (1 - b k) := lt_of_le_of_ne p2 (Ne.symm hz)
    simp only [alphaTail]
    rw [alphaFinal_val hm hW hS p1 hpos]
    simp only [Except.bind]
    rw [add_assoc]

/-- `alphafun` returns a number between 0 and 1 on every path. -/
theorem alphafun_exists (hm : 0 < m) {invR : List (Mat XR n)} {W : ℕ → Fin n → Fin n → ℝ}
    (l : ℕ) : (∀ k < l, invR[k]? = some fun i j => .fin (W k i j)) →
    ∀ {S : ℕ → ParamSet XR n m} {P : ℕ → Point n}, (∀ k ≤ l + 1, Represents (S k) (P k)) →
    ∃ a c, 0 ≤ a ∧ a ≤ 1 ∧ ∀ cnt, alphafun (pathOf S (l + 1)) invR cnt = .ok (.fin a, cnt + c) := by
  induction l using Nat.strong_induction_on with
  | _ l ih =>
    intro hW S P hS
    have ha : ∀ k, ∃ a c, k < l → 0 ≤ a ∧ a ≤ 1 ∧
        ∀ cnt, alphafun (pathOf S (k + 1)) invR cnt = .ok (.fin a, cnt + c) := by
      intro k
      by_cases hk : k < l
      · obtain ⟨a, c, h⟩ := ih k hk (fun i hi => hW i (by omega)) (P := P) (fun i hi => hS i (by omega))
        exact ⟨a, c, fun _ => h⟩
      · exact ⟨0, 0, fun h => absurd h hk⟩
    have hb : ∀ k, ∃ a c, k < l → 0 ≤ a ∧ a ≤ 1 ∧
        ∀ cnt, alphafun (pathOf (fun i => S (l + 1 - i)) (k + 1)) invR cnt = .ok (.fin a, cnt + c) := by
      intro k
      by_cases hk : k < l
      · obtain ⟨a, c, h⟩ := ih k hk (fun i hi => hW i (by omega)) (S := fun i => S (l + 1 - i))
          (P := fun i => P (l + 1 - i)) (fun i hi => hS _ (by omega))
        exact ⟨a, c, fun _ => h⟩
      · exact ⟨0, 0, fun h => absurd h hk⟩
    choose a ca ha using ha
    choose b cb hb using hb
    obtain ⟨c, hc, -⟩ := alphafun_step hm hW hS ha hb
    have p1 : 0 ≤ ∏ k ∈ range l, (1 - a k) := Finset.prod_nonneg fun k hk => by
      have := ha k (Finset.mem_range.1 hk); linarith
    have p2 : 0 ≤ ∏ k ∈ range l, (1 - b k) := Finset.prod_nonneg fun k hk => by
      have := hb k (Finset.mem_range.1 hk); linarith
    have := alphaVal_mem W P l p1 p2
    exact ⟨_, c, this.1, this.2, hc⟩

end Verif
