import Verif.Lemmas.AlphaXR
import Verif.Props.Metropolis

/-! # C09–C11: delayed rejection -/

namespace Verif
set_option linter.unusedSectionVars false
open XR Finset

variable {σ : Type} {N n m : ℕ}

theorem Point.density_pos {p : Point n} (h : p.logpost ≠ none) : 0 < p.density := by
  obtain ⟨e, he⟩ : ∃ e, p.logpost = some e := Option.ne_none_iff_exists'.1 h
  rw [Point.density, he]; exact Real.exp_pos _

/-- `a` is the number `alphafun` returns for the path `S 0, …, S l` (whatever its call counter). -/
def AlphaIs (invR : List (Mat XR n)) (S : ℕ → ParamSet XR n m) (l : ℕ) (a : ℝ) : Prop :=
  ∀ cnt, ∃ cnt', alphafun (pathOf S l) invR cnt = .ok (.fin a, cnt')

theorem AlphaIs.unique {invR : List (Mat XR n)} {S : ℕ → ParamSet XR n m} {l : ℕ} {a b : ℝ}
    (ha : AlphaIs invR S l a) (hb : AlphaIs invR S l b) : a = b := by
  obtain ⟨c, hc⟩ := ha 0
  obtain ⟨d, hd⟩ := hb 0
  rw [hc] at hd
  cases hd; rfl

/-- The values on all initial parts of a path and of the reversed path, and the equation that
links the value on the whole path with them. -/
theorem alpha_data (hm : 0 < m) {invR : List (Mat XR n)} {W : ℕ → Fin n → Fin n → ℝ} {l : ℕ}
    (hW : ∀ k < l, invR[k]? = some fun i j => .fin (W k i j))
    {S : ℕ → ParamSet XR n m} {P : ℕ → Point n} (hS : ∀ k ≤ l + 1, Represents (S k) (P k)) :
    ∃ (a b : ℕ → ℝ) (ca cb : ℕ → ℕ),
      (∀ k < l, 0 ≤ a k ∧ a k ≤ 1 ∧
        ∀ c, alphafun (pathOf S (k + 1)) invR c = .ok (.fin (a k), c + ca k)) ∧
      (∀ k < l, 0 ≤ b k ∧ b k ≤ 1 ∧
        ∀ c, alphafun (pathOf (fun i => S (l + 1 - i)) (k + 1)) invR c = .ok (.fin (b k), c + cb k)) := by
  have ha : ∀ k, ∃ a c, k < l → 0 ≤ a ∧ a ≤ 1 ∧
      ∀ cnt, alphafun (pathOf S (k + 1)) invR cnt = .ok (.fin a, cnt + c) := by
    intro k
    by_cases hk : k < l
    · obtain ⟨a, c, h⟩ := alphafun_exists hm k (fun i hi => hW i (by omega)) (P := P)
        (fun i hi => hS i (by omega))
      exact ⟨a, c, fun _ => h⟩
    · exact ⟨0, 0, fun h => absurd h hk⟩
  have hb : ∀ k, ∃ a c, k < l → 0 ≤ a ∧ a ≤ 1 ∧
      ∀ cnt, alphafun (pathOf (fun i => S (l + 1 - i)) (k + 1)) invR cnt = .ok (.fin a, cnt + c) := by
    intro k
    by_cases hk : k < l
    · obtain ⟨a, c, h⟩ := alphafun_exists hm k (fun i hi => hW i (by omega))
        (S := fun i => S (l + 1 - i)) (P := fun i => P (l + 1 - i)) (fun i hi => hS _ (by omega))
      exact ⟨a, c, fun _ => h⟩
    · exact ⟨0, 0, fun h => absurd h hk⟩
  choose a ca ha using ha
  choose b cb hb using hb
  exact ⟨a, b, ca, cb, ha, hb⟩

theorem logProps_rev (W : ℕ → Fin n → Fin n → ℝ) (P : ℕ → Point n) (l : ℕ) :
    logProps W (fun i => P (l + 1 - i)) l = - logProps W P l := by
  unfold logProps
  rw [← Finset.sum_neg_distrib]
  refine Finset.sum_congr rfl fun k hk => ?_
  have hk' : k ≤ l := by rw [Finset.mem_range] at hk; omega
  unfold logProp
  by_cases h : k = l
  · simp [h]
  · simp only [if_neg h, Nat.sub_self, Nat.sub_zero]
    rw [show l + 1 - (l - k) = k + 1 by omega, show l + 1 - (k + 1) = l - k by omega]
    ring

theorem prod_gauss (W : ℕ → Fin n → Fin n → ℝ) (P : ℕ → Point n) (l : ℕ) :
    ∏ k ∈ range (l + 1), gauss (W k) (P (l + 1)).theta (P (l - k)).theta =
      Real.exp (logProps W P l) *
        ∏ k ∈ range (l + 1), gauss (W k) (P 0).theta (P (k + 1)).theta := by
  unfold logProps
  rw [Real.exp_sum, ← Finset.prod_mul_distrib]
  refine Finset.prod_congr rfl fun k _ => ?_
  change Real.exp (quad _ _ _) = _ * Real.exp (quad _ _ _)
  rw [← Real.exp_add]
  congr 1
  unfold logProp
  by_cases h : k = l
  · subst h
    rw [if_pos rfl, Nat.sub_self, zero_add, quad_symm]
  · rw [if_neg h]; ring

/-- **C09.** Detailed balance of delayed rejection with `l + 1` stages.  For every path
`S 0, …, S (l+1)` of parameter sets standing for the points `P 0, …, P (l+1)`, first and last
inside the limits, and the stages' inverse proposal factors `W k`:
with `a k` (`b k`) the acceptance probability the code computes for the first `k + 1` proposals
of the path (of the reversed path),

density at the start × ∏ proposal densities × ∏ rejection probabilities of the earlier stages ×
acceptance probability

is the same for the path and for the reversed path. -/
theorem C09_detailed_balance (hm : 0 < m) {invR : List (Mat XR n)} {W : ℕ → Fin n → Fin n → ℝ}
    (l : ℕ) (hW : ∀ k < l, invR[k]? = some fun i j => .fin (W k i j))
    {S : ℕ → ParamSet XR n m} {P : ℕ → Point n} (hS : ∀ k ≤ l + 1, Represents (S k) (P k))
    (hfirst : (P 0).logpost ≠ none) (hlast : (P (l + 1)).logpost ≠ none) :
    ∃ a b : ℕ → ℝ,
      (∀ k ≤ l, AlphaIs invR S (k + 1) (a k) ∧ 0 ≤ a k ∧ a k ≤ 1) ∧
      (∀ k ≤ l, AlphaIs invR (fun i => S (l + 1 - i)) (k + 1) (b k) ∧ 0 ≤ b k ∧ b k ≤ 1) ∧
      (P 0).density * (∏ k ∈ range (l + 1), gauss (W k) (P 0).theta (P (k + 1)).theta) *
          (∏ k ∈ range l, (1 - a k)) * a l =
        (P (l + 1)).density *
          (∏ k ∈ range (l + 1), gauss (W k) (P (l + 1)).theta (P (l + 1 - (k + 1))).theta) *
          (∏ k ∈ range l, (1 - b k)) * b l := by
  obtain ⟨a, b, ca, cb, ha, hb⟩ := alpha_data hm hW hS
  have hb' : ∀ k < l, 0 ≤ a k ∧ a k ≤ 1 ∧ ∀ c, alphafun
      (pathOf (fun i => (fun i => S (l + 1 - i)) (l + 1 - i)) (k + 1)) invR c =
        .ok (.fin (a k), c + ca k) := by
    intro k hk
    have : pathOf (fun i => S (l + 1 - (l + 1 - i))) (k + 1) = pathOf S (k + 1) := by
      unfold pathOf
      refine List.map_congr_left fun i hi => ?_
      rw [List.mem_range] at hi
      rw [show l + 1 - (l + 1 - i) = i by omega]
    dsimp only
    rw [this]
    exact ha k hk
  obtain ⟨c, hc, -⟩ := alphafun_step hm hW hS ha hb
  obtain ⟨c', hc', -⟩ := alphafun_step hm hW (S := fun i => S (l + 1 - i))
    (P := fun i => P (l + 1 - i)) (fun k _ => hS _ (by omega)) hb hb'
  set A1 := ∏ k ∈ range l, (1 - a k) with hA1
  set A2 := ∏ k ∈ range l, (1 - b k) with hA2
  have p1 : 0 ≤ A1 := Finset.prod_nonneg fun k hk => by
    have := ha k (Finset.mem_range.1 hk); linarith
  have p2 : 0 ≤ A2 := Finset.prod_nonneg fun k hk => by
    have := hb k (Finset.mem_range.1 hk); linarith
  set va := alphaVal W P l A1 A2 with hva
  set vb := alphaVal W (fun i => P (l + 1 - i)) l A2 A1 with hvb
  have ma := alphaVal_mem W P l p1 p2
  have mb := alphaVal_mem W (fun i => P (l + 1 - i)) l p2 p1
  refine ⟨fun k => if k = l then va else a k, fun k => if k = l then vb else b k, ?_, ?_, ?_⟩
  · intro k hk
    by_cases h : k = l
    · subst h
      simp only [if_true]
      exact ⟨fun cnt => ⟨_, hc cnt⟩, ma.1, ma.2⟩
    · simp only [if_neg h]
      have := ha k (by omega)
      exact ⟨fun cnt => ⟨_, this.2.2 cnt⟩, this.1, this.2.1⟩
  · intro k hk
    by_cases h : k = l
    · subst h
      simp only [if_true]
      exact ⟨fun cnt => ⟨_, hc' cnt⟩, mb.1, mb.2⟩
    · simp only [if_neg h]
      have := hb k (by omega)
      exact ⟨fun cnt => ⟨_, this.2.2 cnt⟩, this.1, this.2.1⟩
  · have e1 : ∏ k ∈ range l, (1 - if k = l then va else a k) = A1 :=
      Finset.prod_congr rfl fun k hk => by
        rw [if_neg (by rw [Finset.mem_range] at hk; omega)]
    have e2 : ∏ k ∈ range l, (1 - if k = l then vb else b k) = A2 :=
      Finset.prod_congr rfl fun k hk => by
        rw [if_neg (by rw [Finset.mem_range] at hk; omega)]
    rw [e1, e2]
    simp only [if_true]
    have hsub : ∀ k, l + 1 - (k + 1) = l - k := fun k => by omega
    simp only [hsub]
    rw [prod_gauss]
    set Q := ∏ k ∈ range (l + 1), gauss (W k) (P 0).theta (P (k + 1)).theta with hQ
    have hQpos : 0 < Q := Finset.prod_pos fun k _ => Real.exp_pos _
    obtain ⟨e0, he0⟩ : ∃ e, (P 0).logpost = some e := Option.ne_none_iff_exists'.1 hfirst
    obtain ⟨el, hel⟩ : ∃ e, (P (l + 1)).logpost = some e := Option.ne_none_iff_exists'.1 hlast
    have d0 : (P 0).density = Real.exp e0 := by rw [Point.density, he0]
    have dl : (P (l + 1)).density = Real.exp el := by rw [Point.density, hel]
    rw [d0, dl]
    rw [hva, hvb]
    unfold alphaVal
    simp only [Nat.sub_self, Nat.sub_zero]
    rw [he0, hel, logProps_rev]
    dsimp only
    by_cases z2 : A2 = 0
    · simp [z2]
    · by_cases z1 : A1 = 0
      · simp [z1, z2]
      · rw [if_neg z1, if_neg z2, if_neg z1, if_neg z2]
        have q1 : 0 < A1 := lt_of_le_of_ne p1 (Ne.symm z1)
        have q2 : 0 < A2 := lt_of_le_of_ne p2 (Ne.symm z2)
        set L := logProps W P l with hL
        have x1 : Real.exp e0 * Q * A1 * min 1 (Real.exp (el - e0 + L) * A2 / A1) =
            Q * min (Real.exp e0 * A1) (Real.exp el * Real.exp L * A2) := by
          rw [show Real.exp e0 * Q * A1 * min 1 (Real.exp (el - e0 + L) * A2 / A1) =
            Q * ((Real.exp e0 * A1) * min 1 (Real.exp (el - e0 + L) * A2 / A1)) by ring,
            mul_min_of_nonneg _ _ (by positivity), mul_one, Real.exp_add, Real.exp_sub]
          congr 2
          field_simp
        have x2 : Real.exp el * (Real.exp L * Q) * A2 * min 1 (Real.exp (e0 - el + -L) * A1 / A2) =
            Q * min (Real.exp e0 * A1) (Real.exp el * Real.exp L * A2) := by
          rw [show Real.exp el * (Real.exp L * Q) * A2 * min 1 (Real.exp (e0 - el + -L) * A1 / A2) =
            Q * ((Real.exp el * Real.exp L * A2) * min 1 (Real.exp (e0 - el + -L) * A1 / A2)) by ring,
            mul_min_of_nonneg _ _ (by positivity), mul_one, Real.exp_add, Real.exp_sub, Real.exp_neg,
            min_comm]
          congr 2
          field_simp
        rw [x1, x2]

/-- C09's hypotheses hold for a three-stage path with an intermediate proposal outside. -/
example : ∃ (invR : List (Mat XR 1)) (W : ℕ → Fin 1 → Fin 1 → ℝ) (S : ℕ → ParamSet XR 1 1)
    (P : ℕ → Point 1), (∀ k < 2, invR[k]? = some fun i j => .fin (W k i j)) ∧
      (∀ k ≤ 3, Represents (S k) (P k)) ∧ (P 0).logpost ≠ none ∧ (P 3).logpost ≠ none ∧
      (P 1).logpost = none := by
  refine ⟨[fun _ _ => .fin 1, fun _ _ => .fin 2], fun k _ _ => k + 1,
    fun k => if k = 1 then setOutsideBounds (XToy.set 3) else XToy.set (k / 2),
    fun k => if k = 1 then ⟨fun _ => 3, none⟩ else XToy.point (k / 2), ?_, ?_, ?_, ?_, ?_⟩
  · intro k hk
    have : k = 0 ∨ k = 1 := by omega
    rcases this with rfl | rfl
    · simp
    · simp only [List.getElem?_cons_succ, List.getElem?_cons_zero]
      norm_num
  · intro k _
    by_cases h : k = 1
    · simp only [if_pos h]
      refine ⟨rfl, fun _ => 1, fun _ => one_pos, rfl, rfl, ?_⟩
      simp [setOutsideBounds]
    · simp only [if_neg h]
      exact XToy.rep _
  · simp [XToy.point]
  · simp [XToy.point]
  · simp

/-! ### C10 -/

/-- Arithmetic of `XR` except that `x/0` is `d x`, whatever `d` is. -/
@[instance_reducible] noncomputable def xrWith (d : XR → XR) : PyFloat XR :=
  { (inferInstance : PyFloat XR) with
    div := fun a b => match b with
      | .fin y => if y = 0 then d a else a / .fin y
      | b => a / b }

theorem xrWith_div (d : XR → XR) (a : XR) {y : ℝ} (h : y ≠ 0) :
    @HDiv.hDiv XR XR XR (@instHDiv XR (xrWith d).toDiv) a (.fin y) = a / .fin y := by
  change (if y = 0 then d a else a / .fin y) = _
  rw [if_neg h]

theorem xrWith_logLike (d : XR → XR) (ss : Vec XR m) {v : Fin m → ℝ} (hv : ∀ i, v i ≠ 0) :
    @logLike XR (xrWith d) m ss (fun i => .fin (v i)) = logLike ss (fun i => .fin (v i)) := by
  unfold logLike
  have : (fun i => @HDiv.hDiv XR XR XR (@instHDiv XR (xrWith d).toDiv) (ss i) (.fin (v i))) =
    fun i => ss i / .fin (v i) := by
    funext i; exact xrWith_div d _ (hv i)
  rw [this]
  rfl

theorem xrWith_nth (d : XR → XR) (k : ℕ) (path : List (ParamSet XR n m)) (invR : List (Mat XR n)) :
  @nthStageLogProposalRatio XR (xrWith d) n m k path invR = nthStageLogProposalRatio k path invR := rfl

theorem xrWith_alphaFinal (d : XR → XR) {l : ℕ} {invR : List (Mat XR n)}
    {S : ℕ → ParamSet XR n m} {P : ℕ → Point n} (hS : ∀ k ≤ l + 1, Represents (S k) (P k))
    {a1 : ℝ} (h1 : a1 ≠ 0) (a2 : XR) :
    @alphaFinal XR (xrWith d) n m (pathOf S (l + 1)) invR (.fin a1) a2 =
      alphaFinal (pathOf S (l + 1)) invR (.fin a1) a2 := by
  unfold alphaFinal
  rw [pathOf_length, pathOf_get S (by omega), pathOf_get S (by omega)]
  obtain ⟨v, hv, hs, -⟩ := (hS (l + 1) le_rfl).energy
  obtain ⟨v', hv', hs', -⟩ := (hS 0 (by omega)).energy
  simp only [show l + 1 + 1 - 1 = l + 1 by omega]
  have e1 := xrWith_logLike d (S (l+1)).ss fun i => (hv i).ne'
  have e2 := xrWith_logLike d (S 0).ss fun i => (hv' i).ne'
  rw [← hs] at e1
  rw [← hs'] at e2
  change Except.bind (List.foldlM (m := Except PyErr) _ (@calcLogPosteriorRatio XR (xrWith d)
    (@logLike XR (xrWith d) m (S (l+1)).ss (S (l+1)).sigma2)
    (@logLike XR (xrWith d) m (S 0).ss (S 0).sigma2) _ _) _) _ = 
    Except.bind (List.foldlM (m := Except PyErr) _ (calcLogPosteriorRatio _ _ _ _) _) _
  rw [e1, e2]
  congr 1
  funext y
  have := xrWith_div d (.fin 1) h1
  change Except.ok (pyMin _ (_ * (@HDiv.hDiv XR XR XR (@instHDiv XR (xrWith d).toDiv) (.fin ((1:ℚ):ℝ)) (.fin a1)))) = _
  rw [xrWith_div d _ h1]
  rfl

theorem xrWith_alphaLoop (d : XR → XR)
    {rec rec' : List (ParamSet XR n m) → ℕ → Except PyErr (XR × ℕ)}
    {path : List (ParamSet XR n m)} {a b : ℕ → ℝ} {ca cb : ℕ → ℕ} {L : ℕ}
    (ha : ∀ k < L, ∀ c, rec (path.take (k + 2)) c = .ok (.fin (a k), c + ca k))
    (hb : ∀ k < L, ∀ c, rec (path.reverse.take (k + 2)) c = .ok (.fin (b k), c + cb k))
    (ha' : ∀ k < L, ∀ c, rec' (path.take (k + 2)) c = rec (path.take (k + 2)) c)
    (hb' : ∀ k < L, (∀ i < k, b i ≠ 1) → ∀ c,
      rec' (path.reverse.take (k + 2)) c = rec (path.reverse.take (k + 2)) c)
    (e : ℕ) : ∀ (j : ℕ), j + e = L → ∀ (a1 a2 : ℝ) (cnt : ℕ), (∀ i < j, b i ≠ 1) → a2 ≠ 0 →
    @alphaLoop XR (xrWith d) n m rec' path (List.range' j e) (.fin a1) (.fin a2) cnt =
      alphaLoop rec path (List.range' j e) (.fin a1) (.fin a2) cnt := by
  induction e with
  | zero => intro j hj a1 a2 cnt _ _; rfl
  | succ e ih =>
    intro j hj a1 a2 cnt hbj h2
    rw [List.range'_succ]
    unfold alphaLoop
    rw [ha' j (by omega), ha j (by omega)]
    change Except.bind (rec' _ _) _ = Except.bind (rec _ _) _
    rw [hb' j (by omega) hbj, hb j (by omega)]
    simp only [Except.bind]
    change (if PyFloat.beq (XR.fin a2 * (XR.fin ((1:ℚ):ℝ) - XR.fin (b j))) (XR.fin ((0:ℚ):ℝ)) then _ else
      @alphaLoop XR (xrWith d) n m rec' path (List.range' (j + 1) e)
        (XR.fin a1 * (XR.fin ((1:ℚ):ℝ) - XR.fin (a j)))
        (XR.fin a2 * (XR.fin ((1:ℚ):ℝ) - XR.fin (b j))) (cnt + ca j + cb j)) = _
    simp only [lit_eq, Rat.cast_one, Rat.cast_zero, fin_sub, fin_mul, fin_beq, decide_eq_true_eq]
    by_cases hz : a2 * (1 - b j) = 0
    · rw [if_pos hz, if_pos hz]
    · rw [if_neg hz, if_neg hz]
      have hj1 : b j ≠ 1 := fun h => hz (by rw [h]; ring)
      exact ih (j + 1) (by omega) _ _ _ (fun i hi => by
        rcases Nat.lt_succ_iff_lt_or_eq.1 hi with h | h
        · exact hbj i h
        · exact h ▸ hj1) hz

theorem xrWith_alphafun (d : XR → XR) (hm : 0 < m) {invR : List (Mat XR n)}
    {W : ℕ → Fin n → Fin n → ℝ} (l : ℕ) :
    (∀ k < l, invR[k]? = some fun i j => .fin (W k i j)) →
    ∀ {S : ℕ → ParamSet XR n m} {P : ℕ → Point n}, (∀ k ≤ l + 1, Represents (S k) (P k)) →
    (∀ k < l, ¬ AlphaIs invR S (k + 1) 1) → ∀ cnt,
    @alphafun XR (xrWith d) n m (pathOf S (l + 1)) invR cnt = alphafun (pathOf S (l + 1)) invR cnt := by
  induction l using Nat.strong_induction_on with
  | _ l ih =>
    intro hW S P hS hgood cnt
    obtain ⟨a, b, ca, cb, ha, hb⟩ := alpha_data hm hW hS
    have p1 : ∏ k ∈ range l, (1 - a k) ≠ 0 := by
      rw [Finset.prod_ne_zero_iff]
      intro k hk h
      have hk' := Finset.mem_range.1 hk
      apply hgood k hk'
      have h1 : a k = 1 := by linarith
      rw [← h1]
      exact fun cnt => ⟨_, (ha k hk').2.2 cnt⟩
    have hlen : (pathOf S (l + 1)).length - 1 - 1 = l := by rw [pathOf_length]; omega
    have hta : ∀ k < l, ∀ c, alphafun ((pathOf S (l + 1)).take (k + 2)) invR c =
        .ok (.fin (a k), c + ca k) := fun k hk c => by
      rw [pathOf_take S (by omega)]; exact (ha k hk).2.2 c
    have htb : ∀ k < l, ∀ c, alphafun ((pathOf S (l + 1)).reverse.take (k + 2)) invR c =
        .ok (.fin (b k), c + cb k) := fun k hk c => by
      rw [pathOf_reverse, pathOf_take _ (by omega)]; exact (hb k hk).2.2 c
    have key := xrWith_alphaLoop d (rec := fun p c => alphafun p invR c)
      (rec' := fun p c => @alphafun XR (xrWith d) n m p invR c) hta htb
      (fun k hk c => by
        rw [pathOf_take S (by omega)]
        exact ih k hk (fun i hi => hW i (by omega)) (P := P) (fun i hi => hS i (by omega))
          (fun i hi => hgood i (by omega)) c)
      (fun k hk hbk c => by
        rw [pathOf_reverse, pathOf_take _ (by omega)]
        refine ih k hk (fun i hi => hW i (by omega)) (P := fun i => P (l + 1 - i))
          (fun i hi => hS _ (by omega)) (fun i hi h1 => ?_) c
        apply hbk i hi
        exact AlphaIs.unique (fun cnt => ⟨_, (hb i (by omega)).2.2 cnt⟩) h1)
      l 0 (by omega) 1 1 (cnt + 1) (fun i hi => absurd hi (by omega)) one_ne_zero
    obtain ⟨c, hc, -⟩ := alphaLoop_val (rec := fun p c => alphafun p invR c) hta htb l 0 (by omega) 1 1 0
      one_ne_zero
    rw [one_mul, ← Finset.range_eq_Ico, one_mul] at hc
    rw [@alphafun_eq XR (xrWith d), @alphafun_eq XR XR.instPyFloat, hlen, List.range_eq_range']
    change Except.bind (@alphaLoop XR (xrWith d) n m _ _ _ (XR.fin ((1:ℚ):ℝ)) (XR.fin ((1:ℚ):ℝ)) _) _ =
      Except.bind (alphaLoop _ _ _ (XR.fin ((1:ℚ):ℝ)) (XR.fin ((1:ℚ):ℝ)) _) _
    rw [Rat.cast_one, key, hc]
    simp only [Except.bind]
    change Except.bind (@alphaTail XR (xrWith d) n m _ _ _) _ = Except.bind (alphaTail _ _ _) _
    congr 1
    by_cases hz : ∏ k ∈ range l, (1 - b k) = 0
    · rw [if_pos hz]; rfl
    · rw [if_neg hz]
      exact xrWith_alphaFinal d hS p1 _

/-- **C10**, path level.  On every path the value is a probability.  If the path is one a run can
reach (started inside the limits, no earlier stage was certain to be accepted), then the value is
the delayed-rejection acceptance probability of the literature,
`min(1, N/D)` with `D ≠ 0`, and the computation does not depend on what `x/0` is (`xrWith d`:
the same arithmetic with `x/0 = d x`): no division by zero takes place at any depth of the
recursion. -/
theorem C10_alpha_well_defined (hm : 0 < m) {invR : List (Mat XR n)} {W : ℕ → Fin n → Fin n → ℝ}
    (l : ℕ) (hW : ∀ k < l, invR[k]? = some fun i j => .fin (W k i j))
    {S : ℕ → ParamSet XR n m} {P : ℕ → Point n} (hS : ∀ k ≤ l + 1, Represents (S k) (P k)) :
    ∃ (a b : ℕ → ℝ),
      (∀ k ≤ l, AlphaIs invR S (k + 1) (a k) ∧ 0 ≤ a k ∧ a k ≤ 1) ∧
      (∀ k < l, AlphaIs invR (fun i => S (l + 1 - i)) (k + 1) (b k) ∧ 0 ≤ b k ∧ b k ≤ 1) ∧
      ((∀ k < l, a k ≠ 1) →
        (∀ d cnt, @alphafun XR (xrWith d) n m (pathOf S (l + 1)) invR cnt =
          alphafun (pathOf S (l + 1)) invR cnt) ∧
        ((P 0).logpost ≠ none →
          let num := (P (l + 1)).density *
            (∏ k ∈ range (l + 1), gauss (W k) (P (l + 1)).theta (P (l - k)).theta) *
            ∏ k ∈ range l, (1 - b k)
          let den := (P 0).density *
            (∏ k ∈ range (l + 1), gauss (W k) (P 0).theta (P (k + 1)).theta) *
            ∏ k ∈ range l, (1 - a k)
          0 < den ∧ a l = min 1 (num / den))) := by
  obtain ⟨a, b, ca, cb, ha, hb⟩ := alpha_data hm hW hS
  obtain ⟨c, hc, -⟩ := alphafun_step hm hW hS ha hb
  set A1 := ∏ k ∈ range l, (1 - a k) with hA1
  set A2 := ∏ k ∈ range l, (1 - b k) with hA2
  have p1 : 0 ≤ A1 := Finset.prod_nonneg fun k hk => by
    have := ha k (Finset.mem_range.1 hk); linarith
  have p2 : 0 ≤ A2 := Finset.prod_nonneg fun k hk => by
    have := hb k (Finset.mem_range.1 hk); linarith
  have ma := alphaVal_mem W P l p1 p2
  refine ⟨fun k => if k = l then alphaVal W P l A1 A2 else a k, b, ?_, ?_, ?_⟩
  · intro k hk
    by_cases h : k = l
    · subst h
      simp only [if_true]
      exact ⟨fun cnt => ⟨_, hc cnt⟩, ma.1, ma.2⟩
    · simp only [if_neg h]
      have := ha k (by omega)
      exact ⟨fun cnt => ⟨_, this.2.2 cnt⟩, this.1, this.2.1⟩
  · exact fun k hk => ⟨fun cnt => ⟨_, (hb k hk).2.2 cnt⟩, (hb k hk).1, (hb k hk).2.1⟩
  · intro hgood
    have hne : ∀ k < l, a k ≠ 1 := fun k hk => by
      have := hgood k hk
      dsimp only at this
      rwa [if_neg (by omega)] at this
    have e1 : ∏ k ∈ range l, (1 - if k = l then alphaVal W P l A1 A2 else a k) = A1 :=
      Finset.prod_congr rfl fun k hk => by
        rw [if_neg (by rw [Finset.mem_range] at hk; omega)]
    have z1 : A1 ≠ 0 := by
      rw [hA1, Finset.prod_ne_zero_iff]
      intro k hk h
      exact hne k (Finset.mem_range.1 hk) (by linarith)
    refine ⟨fun d cnt => xrWith_alphafun d hm l hW hS (fun k hk h => hne k hk ?_) cnt, ?_⟩
    · exact AlphaIs.unique (fun cnt => ⟨_, (ha k hk).2.2 cnt⟩) h
    · intro hfirst num den
      have hden : den = (P 0).density *
          (∏ k ∈ range (l + 1), gauss (W k) (P 0).theta (P (k + 1)).theta) * A1 := by
        simp only [den, e1]
      have hQpos : 0 < ∏ k ∈ range (l + 1), gauss (W k) (P 0).theta (P (k + 1)).theta :=
        Finset.prod_pos fun k _ => Real.exp_pos _
      have q1 : 0 < A1 := lt_of_le_of_ne p1 (Ne.symm z1)
      have hpos : 0 < den := by
        rw [hden]; exact mul_pos (mul_pos (Point.density_pos hfirst) hQpos) q1
      refine ⟨hpos, ?_⟩
      dsimp only
      rw [if_pos rfl, hden]
      simp only [num]
      rw [prod_gauss, ← hA2]
      set Q := ∏ k ∈ range (l + 1), gauss (W k) (P 0).theta (P (k + 1)).theta with hQ
      have hQ0 := hQpos.ne'
      obtain ⟨e0, he0⟩ : ∃ e, (P 0).logpost = some e := Option.ne_none_iff_exists'.1 hfirst
      unfold alphaVal
      rw [he0, Point.density, Point.density, he0]
      by_cases z2 : A2 = 0
      · simp [z2]
      · rw [if_neg z2]
        cases hl : (P (l + 1)).logpost with
        | none => simp [z1]
        | some el =>
          dsimp only
          rw [if_neg z1, Real.exp_add, Real.exp_sub]
          congr 1
          field_simp

/-- Finite data: the user's functions and the generator give finite numbers (uniform draws in
`[0,1)`) on finite arguments. -/
structure FiniteData (P : Problem XR N n m) (G : Rng σ XR) : Prop where
  prior : ∀ θ : Fin n → ℝ, ∃ r : ℝ, P.prior (fun i => .fin (θ i)) = .fin r
  sos : ∀ (b : Bool) (v : Fin N → ℝ) (ss : Vec XR m), P.sosFun b (fun i => .fin (v i)) = .ok ss →
    ∃ q : Fin m → ℝ, ss = fun i => .fin (q i)
  randn : ∀ s, ∃ z : Fin n → ℝ, (G.randn n s).1 = fun i => .fin (z i)
  rand : ∀ s, ∃ u : ℝ, 0 ≤ u ∧ u < 1 ∧ (G.rand s).1 = .fin u

theorem writeAt_fin (parind : Fin n → Fin N) (θ : Fin n → ℝ) (v : Fin N → ℝ) :
    ∃ v' : Fin N → ℝ, writeAt parind (fun i => XR.fin (θ i)) (fun i => .fin (v i)) = fun i => .fin (v' i) := by
  refine ⟨fun k => match (List.finRange n).reverse.find? (fun i => parind i = k) with
    | some i => θ i
    | none => v k, ?_⟩
  funext k
  unfold writeAt
  dsimp only
  cases List.find? (fun i => decide (parind i = k)) (List.finRange n).reverse <;> rfl

theorem evaluateSos_fin {P : Problem XR N n m} {G : Rng σ XR} (hF : FiniteData P G)
    {θ : Fin n → ℝ} {w : World XR σ N} (hw : ∃ v : Fin N → ℝ, w.value = fun i => .fin (v i))
    {e : Vec XR m × World XR σ N} (he : evaluateSos P (fun i => .fin (θ i)) w = .ok e) :
    (∃ q : Fin m → ℝ, e.1 = fun i => .fin (q i)) ∧
    (∃ v : Fin N → ℝ, e.2.value = fun i => .fin (v i)) ∧ e.2.rng = w.rng := by
  obtain ⟨v, hv⟩ := hw
  unfold evaluateSos at he
  dsimp only at he
  rw [hv] at he
  obtain ⟨v', hv'⟩ := writeAt_fin P.parind θ v
  rw [hv'] at he
  split at he
  · split at he
    · rename_i h; cases he; exact ⟨hF.sos _ _ _ h, ⟨v', rfl⟩, rfl⟩
    · split at he
      · rename_i h; cases he; exact ⟨hF.sos _ _ _ h, ⟨v', rfl⟩, rfl⟩
      · cases he
    · cases he
  · split at he
    · rename_i h; cases he; exact ⟨hF.sos _ _ _ h, ⟨v', rfl⟩, rfl⟩
    · cases he

theorem candidate_fin {P : Problem XR N n m} {G : Rng σ XR} (hF : FiniteData P G)
    (θ : Fin n → ℝ) (R : Fin n → Fin n → ℝ) (w : World XR σ N) :
    ∃ θ' : Fin n → ℝ, (sampleCandidate G (fun i => .fin (θ i)) (fun i j => .fin (R i j)) w).1 =
      fun i => .fin (θ' i) := by
  obtain ⟨z, hz⟩ := hF.randn w.rng
  refine ⟨fun j => θ j + ∑ i, z i * R i j, ?_⟩
  unfold sampleCandidate
  dsimp only
  rw [hz, vecMat_fin]
  rfl

/-- a parameter set with finite values and positive variances stands for a point inside -/
theorem represents_of_fin {s : ParamSet XR n m} {θ : Fin n → ℝ} {q v : Fin m → ℝ} {r : ℝ}
    (ht : s.theta = fun i => .fin (θ i)) (hs : s.ss = fun i => .fin (q i)) (hp : s.prior = .fin r)
    (hv : ∀ i, 0 < v i) (hsig : s.sigma2 = fun i => .fin (v i)) :
    ∃ e, Represents s ⟨θ, some e⟩ :=
  ⟨_, ht, v, hv, hsig, q, r, hs, hp, rfl⟩

theorem represents_outside {s : ParamSet XR n m} {θ : Fin n → ℝ} {v : Fin m → ℝ}
    (ht : s.theta = fun i => .fin (θ i)) (hs : s.ss = fun _ => .pinf) (hp : s.prior = .fin 0)
    (hv : ∀ i, 0 < v i) (hsig : s.sigma2 = fun i => .fin (v i)) :
    Represents s ⟨θ, none⟩ :=
  ⟨ht, v, hv, hsig, hs, hp⟩

theorem pathOf_snoc {α : Type} (S : ℕ → α) (l : ℕ) (x : α) :
    pathOf (fun k => if k = l + 1 then x else S k) (l + 1) = pathOf S l ++ [x] := by
  unfold pathOf
  rw [List.range_succ, List.map_append]
  congr 1
  · refine List.map_congr_left fun k hk => ?_
    rw [List.mem_range] at hk
    rw [if_neg (by omega)]
  · simp

theorem pathOf_congr {α : Type} {S T : ℕ → α} {l : ℕ} (h : ∀ k ≤ l, S k = T k) :
    pathOf S l = pathOf T l := by
  unfold pathOf
  refine List.map_congr_left fun k hk => ?_
  rw [List.mem_range] at hk
  exact h k (by omega)

/-- the invariant of the delayed-rejection loop: a path that a run can reach -/
structure GoodPath (invR : List (Mat XR n)) (S : ℕ → ParamSet XR n m) (P : ℕ → Point n) (l : ℕ) :
    Prop where
  rep : ∀ k ≤ l, Represents (S k) (P k)
  first : (P 0).logpost ≠ none
  good : ∀ k < l, ¬ AlphaIs invR S (k + 1) 1

theorem GoodPath.snoc {invR : List (Mat XR n)} {S : ℕ → ParamSet XR n m} {P : ℕ → Point n} {l : ℕ}
    (h : GoodPath invR S P l) {x : ParamSet XR n m} {y : Point n} (hx : Represents x y)
    (hone : ¬ AlphaIs invR (fun k => if k = l + 1 then x else S k) (l + 1) 1) :
    GoodPath invR (fun k => if k = l + 1 then x else S k) (fun k => if k = l + 1 then y else P k)
      (l + 1) := by
  refine ⟨fun k hk => ?_, by simpa using h.first, fun k hk => ?_⟩
  · by_cases hk' : k = l + 1
    · simp only [if_pos hk']; exact hx
    · simp only [if_neg hk']; exact h.rep k (by omega)
  · by_cases hk' : k = l
    · subst hk'; exact hone
    · intro h1
      apply h.good k (by omega)
      intro cnt
      obtain ⟨c, hc⟩ := h1 cnt
      refine ⟨c, ?_⟩
      rw [← hc]
      congr 1
      exact pathOf_congr fun i hi => by rw [if_neg (by omega)]

/-- a proposal outside the limits is never certain to be accepted -/
theorem GoodPath.outside_not_one (hm : 0 < m) {invR : List (Mat XR n)} {W : ℕ → Fin n → Fin n → ℝ}
    {S : ℕ → ParamSet XR n m} {P : ℕ → Point n} {l : ℕ} (hW : ∀ k < l, invR[k]? = some fun i j => .fin (W k i j))
    (h : GoodPath invR S P l) {x : ParamSet XR n m} {y : Point n} (hx : Represents x y)
    (hy : y.logpost = none) :
    ¬ AlphaIs invR (fun k => if k = l + 1 then x else S k) (l + 1) 1 := by
  have hS : ∀ k ≤ l + 1, Represents ((fun k => if k = l + 1 then x else S k) k)
      ((fun k => if k = l + 1 then y else P k) k) := by
    intro k hk
    by_cases hk' : k = l + 1
    · simp only [if_pos hk']; exact hx
    · simp only [if_neg hk']; exact h.rep k (by omega)
  obtain ⟨a, b, h1, -, h3⟩ := C10_alpha_well_defined hm l hW hS
  have hg : ∀ k < l, a k ≠ 1 := by
    intro k hk hak
    apply h.good k hk
    intro cnt
    obtain ⟨c, hc⟩ := (h1 k (by omega)).1 cnt
    rw [hak] at hc
    refine ⟨c, ?_⟩
    rw [← hc]
    congr 1
    exact pathOf_congr fun i hi => by rw [if_neg (by omega)]
  have := ((h3 hg).2 (by simpa using h.first)).2
  intro hone
  have e := AlphaIs.unique (h1 l le_rfl).1 hone
  rw [e] at this
  have hd : y.density = 0 := by rw [Point.density, hy]
  simp [hd] at this

/-- arithmetic that agrees with `XR` in everything the delayed-rejection loop does outside
`alphafun` -/
structure AgreesOutsideAlpha (I : Unit → PyFloat XR) : Prop where
  cand : ∀ {σ : Type} {N n : ℕ} (G : Rng σ XR) (θ : Vec XR n) (R : Mat XR n) (w : World XR σ N),
    @sampleCandidate XR σ (I ()) N n G θ R w = sampleCandidate G θ R w
  out : ∀ {n : ℕ} (θ l u : Vec XR n), @isOutside XR (I ()) n θ l u = isOutside θ l u
  test : ∀ {σ : Type} {N : ℕ} (G : Rng σ XR) (a : XR) (w : World XR σ N),
    @posteriorRatioTest XR σ (I ()) N G a w = posteriorRatioTest G a w
  set : ∀ {n m : ℕ} (θ : Vec XR n) (s : Vec XR m),
    @setOutsideBounds XR (I ()) n m ⟨θ, fun _ => @PyFloat.inf XR (I ()), @PyFloat.lit XR (I ()) 0, s, none⟩ =
      setOutsideBounds ⟨θ, fun _ => PyFloat.inf, lit 0, s, none⟩

theorem xrWith_agrees (d : XR → XR) : AgreesOutsideAlpha fun _ => xrWith d :=
  ⟨fun _ _ _ _ => rfl, fun _ _ _ => rfl, fun _ _ _ => rfl, fun _ _ => rfl⟩

/-- `alphafun` agrees on every path a run can reach -/
def AgreesOnGoodPaths (I : Unit → PyFloat XR) (n m : ℕ) (invR : List (Mat XR n)) : Prop :=
  ∀ (l : ℕ) (W : ℕ → Fin n → Fin n → ℝ) (S : ℕ → ParamSet XR n m) (P : ℕ → Point n),
    (∀ k < l, invR[k]? = some fun i j => .fin (W k i j)) →
    (∀ k ≤ l + 1, Represents (S k) (P k)) →
    (∀ k < l, ¬ AlphaIs invR S (k + 1) 1) → ∀ cnt,
    @alphafun XR (I ()) n m (pathOf S (l + 1)) invR cnt = alphafun (pathOf S (l + 1)) invR cnt

theorem drLoop_xrWith (hm : 0 < m) {I : Unit → PyFloat XR} (hag : AgreesOutsideAlpha I) {P : Problem XR N n m} {G : Rng σ XR} (hF : FiniteData P G)
    {old : ParamSet XR n m} {θ0 : Fin n → ℝ} (hold : old.theta = fun i => .fin (θ0 i))
    {sigma2 : Vec XR m} {v : Fin m → ℝ} (hv : ∀ i, 0 < v i) (hsig : sigma2 = fun i => .fin (v i))
    {RDR : Slot (List (Mat XR n))}
    (hR : ∀ i R, RDR.index i = .ok R → ∃ r : Fin n → Fin n → ℝ, R = fun i j => .fin (r i j))
    {inv : List (Mat XR n)} (hal : AgreesOnGoodPaths I n m inv) {W : ℕ → Fin n → Fin n → ℝ} (left : ℕ) :
    ∀ (itry : ℕ) (S : ℕ → ParamSet XR n m) (Q : ℕ → Point n) (o : DrOut XR σ N n m),
    (∀ k, k + 1 < itry + left → inv[k]? = some fun i j => .fin (W k i j)) →
    GoodPath inv S Q itry → (∃ u : Fin N → ℝ, o.world.value = fun i => .fin (u i)) →
    o.accept = false →
    (@drLoop XR σ (I ()) N n m P G old sigma2 RDR (some inv) left itry (pathOf S itry) o =
      drLoop P G old sigma2 RDR (some inv) left itry (pathOf S itry) o) ∧
    ∀ o', drLoop P G old sigma2 RDR (some inv) left itry (pathOf S itry) o = .ok o' →
      o'.accept = true → ∃ s a, o'.outSet = some (s, false) ∧ s.alpha = some (.fin a) ∧ 0 ≤ a ∧ a ≤ 1 := by
  induction left with
  | zero =>
    intro itry S Q o _ _ _ hacc
    refine ⟨rfl, fun o' ho' ha => ?_⟩
    cases ho'
    rw [hacc] at ha; cases ha
  | succ left ih =>
    intro itry S Q o hW hg hval hacc
    have hWl : ∀ k < itry, inv[k]? = some fun i j => .fin (W k i j) := fun k hk => hW k (by omega)
    rcases hidx : RDR.index itry with err | R
    · refine ⟨?_, fun o' ho' => ?_⟩
      · rw [@drLoop_succ XR σ (I ()), @drLoop_succ XR σ XR.instPyFloat, hidx]; rfl
      · rw [drLoop_succ, hidx] at ho'
        cases ho'
    · obtain ⟨r, hr⟩ := hR _ _ hidx
      obtain ⟨θ', hθ'⟩ := candidate_fin hF θ0 r o.world
      rw [← hold, ← hr] at hθ'
      set cand := sampleCandidate G old.theta R o.world with hcand
      by_cases hout : isOutside cand.1 P.lower P.upper = true
      · -- outside the limits
        set next : ParamSet XR n m := setOutsideBounds ⟨cand.1,
          fun _ => PyFloat.inf, lit 0, sigma2, none⟩ with hnext
        have hrep : Represents next ⟨θ', none⟩ :=
          represents_outside (v := v) hθ' rfl (by simp [hnext, setOutsideBounds]) hv hsig
        have hg' := hg.snoc hrep (hg.outside_not_one hm hWl hrep rfl)
        have key := ih (itry + 1) _ _
          (⟨o.accept, some (old, true), cand.2.2, o.count, o.tries ++ [⟨cand.1, true, false⟩]⟩ :
              DrOut XR σ N n m)
          (fun k hk => hW k (by omega)) hg' hval hacc
        rw [pathOf_snoc] at key
        have e0 : drLoop P G old sigma2 RDR (some inv) (left + 1) itry (pathOf S itry) o =
            drLoop P G old sigma2 RDR (some inv) left (itry + 1) (pathOf S itry ++ [next])
              ⟨o.accept, some (old, true), cand.2.2, o.count, o.tries ++ [⟨cand.1, true, false⟩]⟩ := by
          rw [drLoop_succ, hidx]
          simp only [Except.bind]
          rw [← hcand, if_pos hout]
        rw [e0]
        refine ⟨?_, key.2⟩
        rw [← key.1, @drLoop_succ XR σ (I ()), hidx]
        simp only [Except.bind]
        rw [hag.cand, hag.out, hag.set, ← hcand, if_pos hout]
      · have hx0 : @drLoop XR σ (I ()) N n m P G old sigma2 RDR (some inv) (left + 1) itry
            (pathOf S itry) o = Except.bind (evaluateSos P cand.1 cand.2.2) fun e =>
              Except.bind (@alphafun XR (I ()) n m (pathOf S itry ++ [⟨cand.1, e.1,
                P.prior cand.1, sigma2, none⟩]) inv o.count.steps) fun ac =>
              @drRound XR σ (I ()) N n m P G old sigma2 RDR (some inv) left itry (pathOf S itry) o
                ⟨cand.1, e.1, P.prior cand.1, sigma2, some ac.1⟩
                (posteriorRatioTest G ac.1 e.2) ac.2 := by
          rw [@drLoop_succ XR σ (I ()), hidx]
          simp only [Except.bind, orRaise]
          rw [hag.cand, hag.out, ← hcand, if_neg hout]
          simp only [hag.test]
        have hx1 : drLoop P G old sigma2 RDR (some inv) (left + 1) itry
            (pathOf S itry) o = Except.bind (evaluateSos P cand.1 cand.2.2) fun e =>
              Except.bind (alphafun (pathOf S itry ++ [⟨cand.1, e.1,
                P.prior cand.1, sigma2, none⟩]) inv o.count.steps) fun ac =>
              drRound P G old sigma2 RDR (some inv) left itry (pathOf S itry) o
                ⟨cand.1, e.1, P.prior cand.1, sigma2, some ac.1⟩
                (posteriorRatioTest G ac.1 e.2) ac.2 := by
          rw [drLoop_succ, hidx]
          simp only [Except.bind, orRaise]
          rw [← hcand, if_neg hout]
        rcases he : evaluateSos P cand.1 cand.2.2 with err | e
        · rw [he] at hx1
          refine ⟨?_, fun o' ho' => ?_⟩
          · rw [hx0, hx1, he]; rfl
          · rw [hx1] at ho'
            cases ho'
        · rw [he] at hx1
          have he' := he
          rw [hθ'] at he'
          obtain ⟨⟨q, hq⟩, hval', -⟩ := evaluateSos_fin hF (w := cand.2.2) hval he'
          obtain ⟨pr, hpr⟩ := hF.prior θ'
          set next : ParamSet XR n m := ⟨cand.1, e.1, P.prior cand.1, sigma2, none⟩ with hnext
          obtain ⟨en, hrep⟩ : ∃ en, Represents next ⟨θ', some en⟩ :=
            represents_of_fin (v := v) hθ' hq (by rw [hnext]; dsimp only; rw [hθ', hpr]) hv hsig
          have hS' : ∀ k ≤ itry + 1, Represents ((fun k => if k = itry + 1 then next else S k) k)
              ((fun k => if k = itry + 1 then (⟨θ', some en⟩ : Point n) else Q k) k) := by
            intro k hk
            by_cases hk' : k = itry + 1
            · simp only [if_pos hk']; exact hrep
            · simp only [if_neg hk']; exact hg.rep k (by omega)
          have hx : ∀ cnt, @alphafun XR (I ()) n m (pathOf S itry ++ [next]) inv cnt =
              alphafun (pathOf S itry ++ [next]) inv cnt := by
            intro cnt
            rw [← pathOf_snoc]
            refine hal itry W _ _ hWl hS' (fun k hk h => hg.good k hk fun cnt => ?_) cnt
            obtain ⟨c, hc⟩ := h cnt
            refine ⟨c, ?_⟩
            rw [← hc]
            congr 1
            exact pathOf_congr fun i hi => by rw [if_neg (by omega)]
          obtain ⟨a, c, ha0, ha1, hac⟩ := alphafun_exists hm itry hWl hS'
          rw [pathOf_snoc] at hac
          set next' : ParamSet XR n m := ⟨cand.1, e.1, P.prior cand.1, sigma2, some (.fin a)⟩ with hnext'
          have hrep' : Represents next' ⟨θ', some en⟩ := ⟨hrep.theta, hrep.energy⟩
          set test := posteriorRatioTest G (XR.fin a) e.2 with htest
          have hy0 : @drLoop XR σ (I ()) N n m P G old sigma2 RDR (some inv) (left + 1) itry
              (pathOf S itry) o = @drRound XR σ (I ()) N n m P G old sigma2 RDR (some inv) left itry
                (pathOf S itry) o next' test (o.count.steps + c) := by
            rw [hx0, he]
            simp only [Except.bind]
            rw [← hnext, hx, hac]
          have hy1 : drLoop P G old sigma2 RDR (some inv) (left + 1) itry
              (pathOf S itry) o = drRound P G old sigma2 RDR (some inv) left itry
                (pathOf S itry) o next' test (o.count.steps + c) := by
            rw [hx1]
            simp only [Except.bind]
            rw [← hnext, hac]
          have hr0 : @drRound XR σ (I ()) N n m P G old sigma2 RDR (some inv) left itry
                (pathOf S itry) o next' test (o.count.steps + c) =
              Except.bind (pyGet o.count.iacce itry) fun oi =>
              Except.bind (pySet o.count.iacce itry (oi + if test.1 then 1 else 0)) fun ia =>
              if test.1 then .ok (⟨test.1, some (if test.1 then next' else old, false), test.2,
                ⟨ia, o.count.steps + c⟩, o.tries ++ [⟨next'.theta, false, test.1⟩]⟩ : DrOut XR σ N n m)
              else @drLoop XR σ (I ()) N n m P G old sigma2 RDR (some inv) left (itry + 1)
                (pathOf S itry ++ [next']) ⟨test.1, some (if test.1 then next' else old, false), test.2,
                ⟨ia, o.count.steps + c⟩, o.tries ++ [⟨next'.theta, false, test.1⟩]⟩ := rfl
          have hr1 : drRound P G old sigma2 RDR (some inv) left itry
                (pathOf S itry) o next' test (o.count.steps + c) =
              Except.bind (pyGet o.count.iacce itry) fun oi =>
              Except.bind (pySet o.count.iacce itry (oi + if test.1 then 1 else 0)) fun ia =>
              if test.1 then .ok (⟨test.1, some (if test.1 then next' else old, false), test.2,
                ⟨ia, o.count.steps + c⟩, o.tries ++ [⟨next'.theta, false, test.1⟩]⟩ : DrOut XR σ N n m)
              else drLoop P G old sigma2 RDR (some inv) left (itry + 1)
                (pathOf S itry ++ [next']) ⟨test.1, some (if test.1 then next' else old, false), test.2,
                ⟨ia, o.count.steps + c⟩, o.tries ++ [⟨next'.theta, false, test.1⟩]⟩ := rfl
          by_cases ht : test.1 = true
          · refine ⟨?_, fun o' ho' _ => ?_⟩
            · rw [hy0, hy1, hr0, hr1]
              simp only [ht, if_true]
            · rw [hy1, hr1] at ho'
              obtain ⟨oi, -, ho'⟩ := bind_ok.1 ho'
              obtain ⟨ia, -, ho'⟩ := bind_ok.1 ho'
              rw [if_pos ht] at ho'
              cases ho'
              exact ⟨next', a, by simp [ht], rfl, ha0, ha1⟩
          · have ht' : test.1 = false := by simpa using ht
            have hane : a ≠ 1 := by
              intro h1
              apply ht
              rw [htest, h1]
              unfold posteriorRatioTest
              rw [if_pos (by simp)]
            have htv : ∃ u : Fin N → ℝ, test.2.value = fun i => .fin (u i) := by
              rw [htest]
              unfold posteriorRatioTest
              split
              · exact hval'
              · exact hval'
            have hg' := hg.snoc hrep' (by
              intro h1
              apply hane
              obtain ⟨c1, hc1⟩ := h1 0
              have hsame : alphafun (pathOf (fun k => if k = itry + 1 then next' else S k) (itry + 1)) inv 0 =
                  alphafun (pathOf S itry ++ [next]) inv 0 := by
                rw [pathOf_snoc, ← alphafun_strip, ← alphafun_strip (pathOf S itry ++ [next])]
                simp only [List.map_append, List.map_cons, List.map_nil]
                rfl
              rw [hsame, hac] at hc1
              cases hc1; rfl)
            refine ⟨?_, fun o' ho' => ?_⟩
            · rw [hy0, hy1, hr0, hr1]
              congr 1
              funext oi
              congr 1
              funext ia
              simp only [ht', Bool.false_eq_true, if_false]
              have := (ih (itry + 1) _ _ (⟨test.1, some (if test.1 then next' else old, false), test.2,
                    ⟨ia, o.count.steps + c⟩,
                    o.tries ++ [⟨next'.theta, false, test.1⟩]⟩)
                    (fun k hk => hW k (by omega)) hg' htv ht').1
              rw [pathOf_snoc] at this
              simpa only [ht', Bool.false_eq_true, if_false] using this
            · rw [hy1, hr1] at ho'
              obtain ⟨oi, -, ho'⟩ := bind_ok.1 ho'
              obtain ⟨ia, -, ho'⟩ := bind_ok.1 ho'
              rw [if_neg ht, ← pathOf_snoc] at ho'
              exact (ih (itry + 1) _ _ _ (fun k hk => hW k (by omega)) hg' htv ht').2 o' ho'

/-- **C10**, step level.  A Metropolis step from a point inside the limits has rejected its
proposal and delayed rejection follows.  The user's functions, the draws and the proposal factors
are finite.  Then the delayed-rejection step does not depend on what `x/0` is, i.e. no division by
zero takes place, and if a proposal is accepted its recorded acceptance probability lies in
`[0,1]`. -/
theorem C10_delayed_rejection_step (hm : 0 < m) {P : Problem XR N n m} {G : Rng σ XR}
    (hF : FiniteData P G) {old : ParamSet XR n m} {x : Point n} (hx : Represents old x)
    (hin : x.logpost ≠ none) {R : Fin n → Fin n → ℝ} {w : World XR σ N}
    (hval : ∃ u : Fin N → ℝ, w.value = fun i => .fin (u i))
    {out : StepOut XR σ N n m} {z : Vec XR n}
    (hstep : runMetropolisStep P G old (fun i j => .fin (R i j)) w = .ok (out, z))
    (hrej : out.accept = false)
    {RDR : Slot (List (Mat XR n))}
    (hR : ∀ i R, RDR.index i = .ok R → ∃ r : Fin n → Fin n → ℝ, R = fun i j => .fin (r i j))
    {inv : List (Mat XR n)} {W : ℕ → Fin n → Fin n → ℝ} {ntry : ℕ}
    (hW : ∀ k, k + 1 < ntry → inv[k]? = some fun i j => .fin (W k i j)) (count : DrCount) :
    (∀ d, @runDelayedRejection XR σ (xrWith d) N n m P G old out.newSet RDR ntry (some inv) out.world count =
      runDelayedRejection P G old out.newSet RDR ntry (some inv) out.world count) ∧
    ∀ res, runDelayedRejection P G old out.newSet RDR ntry (some inv) out.world count = .ok res →
      res.1.accept = true → ∃ a, res.1.newSet.alpha = some (.fin a) ∧ 0 ≤ a ∧ a ≤ 1 := by
  obtain ⟨v, hv, hsig, -⟩ := hx.energy
  obtain ⟨θ', hθ'⟩ := candidate_fin hF x.theta R w
  rw [← hx.theta] at hθ'
  -- what the first proposal stands for
  have hnew : (∃ y : Point n, Represents out.newSet y) ∧ out.newSet.sigma2 = old.sigma2 ∧
      ∃ u : Fin N → ℝ, out.world.value = fun i => .fin (u i) := by
    have h := hstep
    unfold runMetropolisStep at h
    dsimp only at h
    split at h
    · cases h
      exact ⟨⟨⟨θ', none⟩, represents_outside (v := v) hθ' rfl (by simp [setOutsideBounds]) hv hsig⟩,
        rfl, hval⟩
    · obtain ⟨e, he, h⟩ := bind_ok.1 h
      cases h
      rw [hθ'] at he
      obtain ⟨⟨q, hq⟩, hv', -⟩ := evaluateSos_fin hF
        (w := (sampleCandidate G old.theta (fun i j => XR.fin (R i j)) w).2.2) hval he
      obtain ⟨pr, hpr⟩ := hF.prior θ'
      refine ⟨?_, rfl, hv'⟩
      obtain ⟨en, hr⟩ := represents_of_fin
        (s := (⟨(sampleCandidate G old.theta (fun i j => XR.fin (R i j)) w).1, e.1,
          P.prior (sampleCandidate G old.theta (fun i j => XR.fin (R i j)) w).1, old.sigma2,
          some (calcLogPosteriorRatio (logLike e.1 old.sigma2) (logLike old.ss old.sigma2)
            (lit (-1/2) * P.prior (sampleCandidate G old.theta (fun i j => XR.fin (R i j)) w).1)
            (lit (-1/2) * old.prior))⟩ : ParamSet XR n m))
        (v := v) hθ' hq (by dsimp only; rw [hθ', hpr]) hv hsig
      exact ⟨_, hr⟩
  obtain ⟨⟨y, hy⟩, hsig2, hval2⟩ := hnew
  obtain ⟨u, hu0, hu1, hu⟩ := hF.rand (G.randn n w.rng).2
  have hacc := C07_accept_iff hm hstep hx hin hy hu0 hu
  rw [hrej] at hacc
  have hdens : y.density < x.density := by
    have hxd := Point.density_pos hin
    by_contra h
    have : u < y.density / x.density := lt_of_lt_of_le hu1 ((one_le_div hxd).2 (not_lt.1 h))
    exact absurd (hacc.2 this) (by simp)
  -- the initial path is good
  have hS0 : ∀ k ≤ 0 + 1, Represents ((fun k => if k = 0 then old else out.newSet) k)
      ((fun k => if k = 0 then x else y) k) := by
    intro k hk
    have : k = 0 ∨ k = 1 := by omega
    rcases this with rfl | rfl
    · exact hx
    · exact hy
  have hgood : GoodPath inv (fun k => if k = 0 then old else out.newSet)
      (fun k => if k = 0 then x else y) 1 := by
    refine ⟨hS0, by simpa using hin, fun k hk => ?_⟩
    have : k = 0 := by omega
    subst this
    obtain ⟨a, b, h1, -, h3⟩ := C10_alpha_well_defined hm 0
      (fun k hk => absurd hk (by omega)) (W := W) hS0 (invR := inv)
    intro hone
    have e := AlphaIs.unique (h1 0 le_rfl).1 hone
    obtain ⟨hd, hval⟩ := (h3 (fun k hk => absurd hk (by omega))).2 (by simpa using hin)
    rw [e] at hval
    simp only [zero_add, if_true, Finset.range_one, Finset.prod_singleton, Finset.range_zero,
      Finset.prod_empty, mul_one, one_ne_zero, if_false] at hd hval
    have hle : (1 : ℝ) ≤ y.density * gauss (W 0) y.theta x.theta / (x.density * gauss (W 0) x.theta y.theta) := by
      rw [hval]; exact min_le_right _ _
    rw [one_le_div hd] at hle
    have hgs : gauss (W 0) y.theta x.theta = gauss (W 0) x.theta y.theta :=
      congrArg Real.exp (quad_symm (W 0) y.theta x.theta)
    rw [hgs] at hle
    have := le_of_mul_le_mul_right hle (Real.exp_pos _)
    linarith
  have K := fun d => drLoop_xrWith hm (xrWith_agrees d) hF hx.theta (sigma2 := out.newSet.sigma2) (v := v) hv
    (hsig2.trans hsig) hR (inv := inv)
    (fun l W S P hW hS hg cnt => xrWith_alphafun d hm l hW hS hg cnt) (W := W) (ntry - 1) 1 _ _
    (⟨false, none, out.world, count, []⟩ : DrOut XR σ N n m)
    (fun k hk => hW k (by omega)) hgood hval2 rfl
  refine ⟨fun d => ?_, fun res hres hra => ?_⟩
  · unfold runDelayedRejection
    change Except.bind (@drLoop XR σ (xrWith d) N n m P G old out.newSet.sigma2 RDR (some inv) (ntry - 1) 1
      (pathOf (fun k => if k = 0 then old else out.newSet) 1) _) _ = Except.bind (drLoop P G old
      out.newSet.sigma2 RDR (some inv) (ntry - 1) 1
      (pathOf (fun k => if k = 0 then old else out.newSet) 1) _) _
    rw [(K d).1]
  · unfold runDelayedRejection at hres
    rw [bind_ok] at hres
    obtain ⟨o, ho, hres⟩ := hres
    have := (K id).2 o ho
    split at hres
    · rename_i s ob hs
      cases hres
      obtain ⟨s', a, h1, h2, h3⟩ := this hra
      rw [hs] at h1
      cases h1
      exact ⟨a, h2, h3⟩
    · cases hres

end Verif
