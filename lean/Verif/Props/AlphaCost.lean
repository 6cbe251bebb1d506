import Verif.Props.DelayedRejection
import Verif.Lemmas.Counts
import Verif.Spec.Toy

/-! # C11: cost of the delayed-rejection recursion -/

namespace Verif
set_option linter.unusedSectionVars false
open XR Finset

section general
variable {F σ : Type} [PyFloat F] {N n m : ℕ}

/-- **C11**, upper bound, for every float type: one evaluation of the acceptance probability at
stage `l + 1` (a path of at most `l + 2` sets) calls the recursive function at least once and at
most `3 ^ l` times. -/
theorem C11_cost_bound (invR : List (Mat F n)) (l : ℕ) (path : List (ParamSet F n m))
    (cnt : ℕ) (r : F × ℕ) (hl : path.length ≤ l + 2) (h : alphafun path invR cnt = .ok r) :
    cnt < r.2 ∧ r.2 ≤ cnt + 3 ^ l :=
  alphafun_count invR l path cnt r hl h

/-- number of delayed-rejection proposals (all but the first of an iteration) inside the limits;
each needs one evaluation of the acceptance probability -/
def evaluations (ts : List (Try F n)) : ℕ := (ts.drop 1).countP fun t => !t.outside

/-- the calls these evaluations may need: `3 ^ k` for the proposal of stage `k + 1` -/
def maxCalls (ts : List (Try F n)) : ℕ :=
  (ts.zipIdx.map fun t => if t.2 = 0 ∨ t.1.outside = true then 0 else 3 ^ t.2).sum

/-- the same, for the proposals of the stages from `k + 1` on -/
def costFrom : ℕ → List (Try F n) → ℕ
  | _, [] => 0
  | k, t :: ts => (if t.outside then 0 else 3 ^ k) + costFrom (k + 1) ts

theorem costFrom_eq (ts : List (Try F n)) (k : ℕ) :
    costFrom (k + 1) ts =
      ((ts.zipIdx (k + 1)).map fun t => if t.2 = 0 ∨ t.1.outside = true then 0 else 3 ^ t.2).sum := by
  induction ts generalizing k with
  | nil => rfl
  | cons t ts ih =>
    rw [List.zipIdx_cons, List.map_cons, List.sum_cons, costFrom, ih (k + 1)]
    congr 1
    simp

theorem maxCalls_cons (t : Try F n) (ts : List (Try F n)) :
    maxCalls (t :: ts) = costFrom 1 ts := by
  unfold maxCalls
  rw [List.zipIdx_cons, List.map_cons, List.sum_cons, costFrom_eq]
  simp

theorem drLoop_steps {P : Problem F N n m} {G : Rng σ F} {old : ParamSet F n m} {sigma2 : Vec F m}
    {RDR : Slot (List (Mat F n))} {invR : Option (List (Mat F n))} :
    ∀ (left itry : ℕ) (path : List (ParamSet F n m)) (o0 o : DrOut F σ N n m),
    path.length = itry + 1 → drLoop P G old sigma2 RDR invR left itry path o0 = .ok o →
    ∃ ts, o.tries = o0.tries ++ ts ∧
      o0.count.steps + ts.countP (fun t => !t.outside) ≤ o.count.steps ∧
      o.count.steps ≤ o0.count.steps + costFrom itry ts
  | 0, itry, path, o0, o, _, h => by
      cases h
      exact ⟨[], by simp, by simp, by simp [costFrom]⟩
  | left + 1, itry, path, o0, o, hp, h => by
      rw [drLoop_succ] at h
      obtain ⟨R, -, h⟩ := bind_ok.1 h
      split at h
      · obtain ⟨ts, h1, h2, h3⟩ := drLoop_steps left _ _ _ o (by simp [hp]) h
        refine ⟨⟨_, true, false⟩ :: ts, by rw [h1]; simp; rfl, by simpa using h2, ?_⟩
        simpa [costFrom] using h3
      · obtain ⟨e, -, h⟩ := bind_ok.1 h
        obtain ⟨inv, -, h⟩ := bind_ok.1 h
        obtain ⟨ac, hac, h⟩ := bind_ok.1 h
        have hb := alphafun_count inv itry _ _ _ (by simp [hp]) hac
        unfold drRound at h
        obtain ⟨oi, -, h⟩ := bind_ok.1 h
        obtain ⟨ia, -, h⟩ := bind_ok.1 h
        dsimp only at h
        split at h
        · cases h
          refine ⟨_, rfl, ?_, ?_⟩
          · simp; omega
          · simp [costFrom]; omega
        · obtain ⟨ts, h1, h2, h3⟩ := drLoop_steps left _ _ _ o (by simp [hp]) h
          dsimp only at h1 h2 h3
          refine ⟨_ :: ts, by rw [h1, List.append_assoc]; rfl, ?_, ?_⟩
          · simp only [List.countP_cons, Bool.not_false, if_true]; omega
          · simp only [costFrom, Bool.false_eq_true, if_false]; omega

theorem propose_steps {E : Env F σ N n m} {s : SimState F σ N n m} {p : Proposal F σ N n m}
    (h : propose E s = .ok p) :
    s.dr.steps + evaluations p.tries ≤ p.dr.steps ∧ p.dr.steps ≤ s.dr.steps + maxCalls p.tries := by
  unfold propose at h
  obtain ⟨⟨o, z⟩, -, h⟩ := bind_ok.1 h
  dsimp only at h
  split at h
  · obtain ⟨⟨o2, dr, ts⟩, h2, h⟩ := bind_ok.1 h
    cases h
    unfold runDelayedRejection at h2
    obtain ⟨d, hd, h2⟩ := bind_ok.1 h2
    obtain ⟨ts', h3, h4, h5⟩ := drLoop_steps _ 1 _ _ _ rfl hd
    split at h2
    · cases h2
      simp only [List.nil_append] at h3
      rw [maxCalls_cons, h3]
      exact ⟨by simpa [evaluations] using h4, h5⟩
    · cases h2
  · cases h
    simp [evaluations, maxCalls]

variable {flags : Fin N → Bool}

/-- **C11**, run level, for every float type.  The reported `alpha_count` of a completed run lies
between the number of acceptance-probability evaluations of the run and the sum of `3 ^ (k-1)`
over these evaluations, `k` their stage. -/
theorem C11_alpha_count {U : UserFuns F N (nS flags) m} {o : Obj F flags m}
    {G : Rng σ F} {L : Lapack F} {fuel : ℕ} {rng : σ} {up : Bool}
    {out : RunOut F σ flags m} (h : runSimulation U G L fuel o rng up = .ok out)
    (hntry : 1 < o.opts.ntry) :
    ∃ iacce cnt, out.results.dram = some (iacce, cnt) ∧
      (out.final.trace.map evaluations).sum ≤ cnt ∧ cnt ≤ (out.final.trace.map maxCalls).sum := by
  obtain ⟨o1, I, s0, h1, h2, h3, h4, h5⟩ := runSimulation_ok h
  obtain ⟨hdram, _, _, hrej, _⟩ := generateResults_ok h3
  have hst : StartSpec U o o1 rng I s0 := by
    cases up with
    | false => exact (setup_fresh h1).1
    | true => exact (setup_continue h1).1
  obtain ⟨hn, s1, hP, hfin⟩ := executeSimulator_inv
    (P := fun _ s => (s.trace.map evaluations).sum ≤ s.dr.steps ∧
      s.dr.steps ≤ (s.trace.map maxCalls).sum)
    (by
      change ((s0.trace.map evaluations).sum ≤ s0.dr.steps ∧
        s0.dr.steps ≤ (s0.trace.map maxCalls).sum)
      rw [hst.trace, hst.dr]; simp)
    (fun i a b p hi _ hP hp => by
      have := propose_steps hp.prop
      rw [hp.trace, hp.dr]
      simp only [List.map_append, List.sum_append, List.map_cons, List.map_nil, List.sum_cons,
        List.sum_nil]
      omega) h2
  have hopt : o.opts.ntry = I.opts.ntry := by rw [hst.init.opts, ← hst.opts]; rfl
  unfold dramResults at hdram
  rw [if_pos (by omega)] at hdram
  have hd : ∃ d, addDram I.opts.nsimu.toNat out.final.rejected.total out.final.dr = .ok d ∧
      out.results.dram = some d := by
    split at hdram
    · cases hdram
    · rw [bind_ok] at hdram
      obtain ⟨d, hd1, hd2⟩ := hdram
      exact ⟨d, hd1, (Except.ok.inj hd2).symm⟩
  obtain ⟨d, hd1, hd2⟩ := hd
  unfold addDram at hd1
  have e4 : out.final.dr = s1.dr := by rw [hfin]
  have e5 : out.final.trace = s1.trace := by rw [hfin]
  split at hd1
  · cases hd1
  · cases hd1
    exact ⟨_, _, hd2, by rw [e4, e5]; exact hP.1, by rw [e4, e5]; exact hP.2⟩

/-- a run with delayed rejection that evaluates acceptance probabilities -/
example : ∃ out, Toy.run .dram 5 = .ok out ∧ 1 < (Toy.obj .dram 5).opts.ntry ∧
    (out.final.trace.map evaluations).sum ≠ 0 := by
  obtain ⟨out, h, h1⟩ := exists_ok_and (x := Toy.run .dram 5)
    (fun o => decide ((o.final.trace.map evaluations).sum ≠ 0)) (by decide +kernel)
  exact ⟨out, h, by decide, of_decide_eq_true h1⟩

end general

variable {N n m : ℕ}

/-- No return proposal is certain: in no call made while the acceptance probability of the path
`S 0, …, S (l+1)` is computed does the loop over the earlier stages end early, i.e. none of the
shorter reversed paths (except the longest one, after which the loop ends anyway) has acceptance
probability one. -/
inductive ReturnsUncertain (invR : List (Mat XR n)) : ℕ → (ℕ → ParamSet XR n m) → Prop
  | intro {l : ℕ} {S : ℕ → ParamSet XR n m} :
    (∀ k, k + 1 < l → ¬ AlphaIs invR (fun i => S (l + 1 - i)) (k + 1) 1) →
    (∀ k, k < l → ReturnsUncertain invR k S) →
    (∀ k, k < l → ReturnsUncertain invR k (fun i => S (l + 1 - i))) → ReturnsUncertain invR l S

/-- **C11**, exact count.  If no return proposal is certain, the evaluation makes exactly `3 ^ l`
calls. -/
theorem C11_exact_cost (hm : 0 < m) {invR : List (Mat XR n)} {W : ℕ → Fin n → Fin n → ℝ} (l : ℕ) :
    (∀ k < l, invR[k]? = some fun i j => .fin (W k i j)) →
    ∀ {S : ℕ → ParamSet XR n m} {P : ℕ → Point n}, (∀ k ≤ l + 1, Represents (S k) (P k)) →
    ReturnsUncertain invR l S →
    ∀ cnt, ∃ a, alphafun (pathOf S (l + 1)) invR cnt = .ok (.fin a, cnt + 3 ^ l) := by
  induction l using Nat.strong_induction_on with
  | _ l ih =>
    intro hW S P hS hsure cnt
    obtain ⟨h1, h2, h3⟩ := hsure
    obtain ⟨a, b, ca, cb, ha, hb⟩ := alpha_data hm hW hS
    have hca : ∀ k < l, ca k = 3 ^ k := by
      intro k hk
      obtain ⟨x, hx⟩ := ih k hk (fun i hi => hW i (by omega)) (P := P) (fun i hi => hS i (by omega))
        (h2 k hk) 0
      rw [(ha k hk).2.2 0] at hx
      have := congrArg Prod.snd (Except.ok.inj hx)
      simpa using this
    have hcb : ∀ k < l, cb k = 3 ^ k := by
      intro k hk
      obtain ⟨x, hx⟩ := ih k hk (fun i hi => hW i (by omega)) (S := fun i => S (l + 1 - i))
        (P := fun i => P (l + 1 - i)) (fun i hi => hS _ (by omega)) (h3 k hk) 0
      rw [(hb k hk).2.2 0] at hx
      have := congrArg Prod.snd (Except.ok.inj hx)
      simpa using this
    obtain ⟨c, hc, hc'⟩ := alphafun_step hm hW hS ha hb
    have hce := hc' l le_rfl (fun k hk hbk => h1 k hk fun cnt =>
      ⟨_, by rw [(hb k (by omega)).2.2 cnt, hbk]⟩) (Or.inl rfl)
    refine ⟨alphaVal W P l (∏ k ∈ range l, (1 - a k)) (∏ k ∈ range l, (1 - b k)), ?_⟩
    rw [hc cnt, hce, Finset.sum_congr rfl (g := fun k => 2 * 3 ^ k) fun k hk => by
      rw [hca k (Finset.mem_range.1 hk), hcb k (Finset.mem_range.1 hk)]; ring]
    have hs : ∀ l : ℕ, 1 + ∑ k ∈ range l, 2 * 3 ^ k = 3 ^ l := by
      intro l
      induction l with
      | zero => rfl
      | succ l ih => rw [Finset.sum_range_succ, ← add_assoc, ih]; ring
    rw [hs]

/-- **C11**, stage 2: always exactly three calls. -/
theorem C11_second_stage (hm : 0 < m) {invR : List (Mat XR n)} {W : Fin n → Fin n → ℝ}
    (hW : invR[0]? = some fun i j => .fin (W i j))
    {S : ℕ → ParamSet XR n m} {P : ℕ → Point n} (hS : ∀ k ≤ 2, Represents (S k) (P k)) (cnt : ℕ) :
    ∃ a, alphafun (pathOf S 2) invR cnt = .ok (.fin a, cnt + 3) := by
  have h0 : ∀ T : ℕ → ParamSet XR n m, ReturnsUncertain invR 0 T := fun T =>
    .intro (fun _ h => absurd h (by omega)) (fun _ h => absurd h (by omega))
      (fun _ h => absurd h (by omega))
  exact C11_exact_cost hm 1 (W := fun _ => W) (fun k hk => by rw [show k = 0 by omega]; exact hW) hS
    (.intro (fun _ h => absurd h (by omega)) (fun k hk => by rw [show k = 0 by omega]; exact h0 _)
      (fun k hk => by rw [show k = 0 by omega]; exact h0 _)) cnt

/-- the first-stage probability is one exactly when the proposal's density is not smaller -/
theorem alpha_one_iff (hm : 0 < m) {invR : List (Mat XR n)} {x y : ParamSet XR n m} {p q : Point n}
    (hx : Represents x p) (hy : Represents y q) (hp : p.logpost ≠ none) :
    AlphaIs invR (fun k => if k = 0 then x else y) 1 1 ↔ p.density ≤ q.density := by
  have hS : ∀ k ≤ 0 + 1, Represents ((fun k => if k = 0 then x else y) k)
      ((fun k => if k = 0 then p else q) k) := by
    intro k hk
    have : k = 0 ∨ k = 1 := by omega
    rcases this with rfl | rfl
    · exact hx
    · exact hy
  obtain ⟨a, b, h1, -, h3⟩ := C10_alpha_well_defined hm 0
    (fun k hk => absurd hk (by omega)) (W := fun _ _ _ => 0) hS (invR := invR)
  have ha := (h1 0 le_rfl).1
  obtain ⟨hd, hval⟩ := (h3 (fun k hk => absurd hk (by omega))).2 (by simpa using hp)
  simp only [zero_add, if_true, Finset.range_one, Finset.prod_singleton, Finset.range_zero,
    Finset.prod_empty, mul_one, one_ne_zero, if_false] at hd hval
  have hg : ∀ u v : Fin n → ℝ, gauss (fun _ _ => 0) u v = 1 := fun u v => by simp [gauss]
  rw [hg, hg, mul_one, mul_one] at hval
  have hpd := Point.density_pos hp
  constructor
  · intro h
    have e := AlphaIs.unique ha h
    rw [e] at hval
    have : 1 ≤ q.density / p.density := by rw [hval]; exact min_le_right _ _
    exact (one_le_div hpd).1 this
  · intro h
    have : a 0 = 1 := by rw [hval]; exact min_eq_left ((one_le_div hpd).2 h)
    rw [← this]
    exact ha

/-- **C11**, stage 3: nine calls, unless going back from the third proposal to the second is
certain to be accepted (the second has at least its density): then three. -/
theorem C11_third_stage (hm : 0 < m) {invR : List (Mat XR n)} {W : ℕ → Fin n → Fin n → ℝ}
    (hW : ∀ k < 2, invR[k]? = some fun i j => .fin (W k i j))
    {S : ℕ → ParamSet XR n m} {P : ℕ → Point n} (hS : ∀ k ≤ 3, Represents (S k) (P k))
    (hlast : (P 3).logpost ≠ none) (cnt : ℕ) :
    ∃ a, alphafun (pathOf S 3) invR cnt =
      .ok (.fin a, cnt + if (P 3).density ≤ (P 2).density then 3 else 9) := by
  obtain ⟨a, b, ca, cb, ha, hb⟩ := alpha_data hm hW hS
  have hrev : AlphaIs invR (fun i => S (3 - i)) 1 1 ↔ (P 3).density ≤ (P 2).density := by
    rw [← alpha_one_iff hm (invR := invR) (hS 3 le_rfl) (hS 2 (by omega)) hlast]
    have : pathOf (fun i => S (3 - i)) 1 = pathOf (fun k => if k = 0 then S 3 else S 2) 1 := rfl
    unfold AlphaIs
    rw [this]
  have one : ∀ (T : ℕ → ParamSet XR n m) (Q : ℕ → Point n), (∀ k ≤ 1, Represents (T k) (Q k)) →
      ∃ a, alphafun (pathOf T 1) invR 0 = .ok (.fin a, 0 + 1) := fun T Q hT =>
    C11_exact_cost hm 0 (W := W) (fun k hk => absurd hk (by omega)) hT
      (.intro (fun _ h => absurd h (by omega)) (fun _ h => absurd h (by omega))
        (fun _ h => absurd h (by omega))) 0
  have hca0 : ca 0 = 1 := by
    obtain ⟨x, hx⟩ := one S P fun k hk => hS k (by omega)
    rw [(ha 0 (by omega)).2.2 0] at hx
    have := congrArg Prod.snd (Except.ok.inj hx)
    simpa using this
  have hcb0 : cb 0 = 1 := by
    obtain ⟨x, hx⟩ := one (fun i => S (3 - i)) (fun i => P (3 - i)) fun k hk => hS _ (by omega)
    rw [(hb 0 (by omega)).2.2 0] at hx
    have := congrArg Prod.snd (Except.ok.inj hx)
    simpa using this
  have hca1 : ca 1 = 3 := by
    obtain ⟨x, hx⟩ := C11_second_stage hm (hW 0 (by omega)) (S := S) (P := P)
      (fun k hk => hS k (by omega)) 0
    rw [(ha 1 (by omega)).2.2 0] at hx
    have := congrArg Prod.snd (Except.ok.inj hx)
    simpa using this
  have hcb1 : cb 1 = 3 := by
    obtain ⟨x, hx⟩ := C11_second_stage hm (hW 0 (by omega)) (S := fun i => S (3 - i))
      (P := fun i => P (3 - i)) (fun k hk => hS _ (by omega)) 0
    rw [(hb 1 (by omega)).2.2 0] at hx
    have := congrArg Prod.snd (Except.ok.inj hx)
    simpa using this
  obtain ⟨c, hc, hc'⟩ := alphafun_step hm hW hS ha hb
  refine ⟨alphaVal W P 2 (∏ k ∈ range 2, (1 - a k)) (∏ k ∈ range 2, (1 - b k)), ?_⟩
  rw [hc cnt]
  have hb0 : b 0 = 1 ↔ (P 3).density ≤ (P 2).density := by
    rw [← hrev]
    constructor
    · intro h cnt
      exact ⟨_, by rw [(hb 0 (by omega)).2.2 cnt, h]⟩
    · exact fun h => AlphaIs.unique (fun cnt => ⟨_, (hb 0 (by omega)).2.2 cnt⟩) h
  by_cases h : (P 3).density ≤ (P 2).density
  · rw [if_pos h, hc' 1 (by omega) (fun k hk => absurd hk (by omega))
      (Or.inr ⟨one_pos, hb0.2 h⟩)]
    simp [hca0, hcb0]
  · rw [if_neg h, hc' 2 le_rfl (fun k hk => by rw [show k = 0 by omega]; exact fun h1 => h (hb0.1 h1))
      (Or.inl rfl)]
    simp [Finset.sum_range_succ, hca0, hcb0, hca1, hcb1]

/-- a path of XToy points -/
theorem XToy.density_le {s t : ℝ} (h : t * t ≤ s * s) :
    (XToy.point s).density ≤ (XToy.point t).density := by
  simp only [Point.density, XToy.point]
  exact Real.exp_le_exp.2 (by linarith)

theorem XToy.density_lt {s t : ℝ} (h : t * t < s * s) :
    (XToy.point s).density < (XToy.point t).density := by
  simp only [Point.density, XToy.point]
  exact Real.exp_lt_exp.2 (by linarith)

/-- Both cases of the third stage occur: nine calls on `0, 2, 2, 1`, three on `0, 2, 1, 2`. -/
example : (∃ a, alphafun (pathOf (fun k => XToy.set (([0, 2, 2, 1] : List ℝ).getD k 0)) 3)
      [fun _ _ => .fin 1, fun _ _ => .fin 2] 0 = .ok (.fin a, 0 + 9)) ∧
    (∃ a, alphafun (pathOf (fun k => XToy.set (([0, 2, 1, 2] : List ℝ).getD k 0)) 3)
      [fun _ _ => .fin 1, fun _ _ => .fin 2] 0 = .ok (.fin a, 0 + 3)) := by
  have hW : ∀ k < 2, ([fun _ _ => .fin 1, fun _ _ => .fin 2] : List (Mat XR 1))[k]? =
      some fun i j => .fin ((fun k _ _ => (k : ℝ) + 1 : ℕ → Fin 1 → Fin 1 → ℝ) k i j) := by
    intro k hk
    have : k = 0 ∨ k = 1 := by omega
    rcases this with rfl | rfl
    · simp
    · simp only [List.getElem?_cons_succ, List.getElem?_cons_zero]
      norm_num
  constructor
  · have := C11_third_stage (m := 1) one_pos hW
      (S := fun k => XToy.set (([0, 2, 2, 1] : List ℝ).getD k 0))
      (P := fun k => XToy.point (([0, 2, 2, 1] : List ℝ).getD k 0)) (fun k _ => XToy.rep _)
      (by simp [XToy.point]) 0
    rwa [if_neg (not_le.2 (XToy.density_lt (by norm_num)))] at this
  · have := C11_third_stage (m := 1) one_pos hW
      (S := fun k => XToy.set (([0, 2, 1, 2] : List ℝ).getD k 0))
      (P := fun k => XToy.point (([0, 2, 1, 2] : List ℝ).getD k 0)) (fun k _ => XToy.rep _)
      (by simp [XToy.point]) 0
    rwa [if_pos (XToy.density_le (by norm_num))] at this

/-- `ReturnsUncertain` is satisfiable with three stages (the hypothesis of `C11_exact_cost`). -/
example : ReturnsUncertain (n := 1) (m := 1) [fun _ _ => .fin 1, fun _ _ => .fin 2] 2
    (fun k => XToy.set (([0, 2, 2, 1] : List ℝ).getD k 0)) := by
  have h0 : ∀ T : ℕ → ParamSet XR 1 1,
      ReturnsUncertain [fun _ _ => .fin 1, fun _ _ => .fin 2] 0 T := fun T =>
    .intro (fun _ h => absurd h (by omega)) (fun _ h => absurd h (by omega))
      (fun _ h => absurd h (by omega))
  have h1 : ∀ T : ℕ → ParamSet XR 1 1,
      ReturnsUncertain [fun _ _ => .fin 1, fun _ _ => .fin 2] 1 T := fun T =>
    .intro (fun _ h => absurd h (by omega)) (fun k hk => by rw [show k = 0 by omega]; exact h0 _)
      (fun k hk => by rw [show k = 0 by omega]; exact h0 _)
  refine .intro (fun k hk => ?_) (fun k hk => ?_) (fun k hk => ?_)
  · rw [show k = 0 by omega]
    intro h
    have := (alpha_one_iff (m := 1) one_pos (x := XToy.set 1) (y := XToy.set 2) (XToy.rep 1)
      (XToy.rep 2) (by simp [XToy.point])).1 h
    exact absurd this (not_le.2 (XToy.density_lt (by norm_num)))
  · rcases (by omega : k = 0 ∨ k = 1) with rfl | rfl
    · exact h0 _
    · exact h1 _
  · rcases (by omega : k = 0 ∨ k = 1) with rfl | rfl
    · exact h0 _
    · exact h1 _

/-- the hypotheses of `C11_cost_bound` hold on a three-stage path -/
example : ∃ r, alphafun (pathOf (fun k => XToy.set (([0, 2, 1, 2] : List ℝ).getD k 0)) 2)
    [fun _ _ => .fin 1] 0 = .ok r ∧ 0 < r.2 ∧ r.2 ≤ 0 + 3 ^ 1 := by
  obtain ⟨a, ha⟩ := C11_second_stage (m := 1) one_pos (invR := [fun _ _ => .fin 1]) (W := fun _ _ => 1) rfl
    (S := fun k => XToy.set (([0, 2, 1, 2] : List ℝ).getD k 0))
    (P := fun k => XToy.point (([0, 2, 1, 2] : List ℝ).getD k 0)) (fun k _ => XToy.rep _) 0
  exact ⟨_, ha, C11_cost_bound _ 1 _ 0 _ (by rw [pathOf_length]) ha⟩

/-! ### examples for C10 -/

/-- C10, path level: a path whose first proposal is outside, so that stage was not certain -/
example : ¬ AlphaIs (n := 1) (m := 1) [fun _ _ => .fin 1]
    (fun k => if k = 0 + 1 then setOutsideBounds (XToy.set 3) else XToy.set (k / 2)) (0 + 1) 1 := by
  have hrep : Represents (setOutsideBounds (XToy.set 3)) (⟨fun _ => 3, none⟩ : Point 1) := by
    refine ⟨rfl, fun _ => 1, fun _ => one_pos, rfl, rfl, ?_⟩
    simp [setOutsideBounds]
  exact GoodPath.outside_not_one (m := 1) one_pos (W := fun _ _ _ => 1) (P := fun k => XToy.point (k / 2))
    (fun k hk => absurd hk (by omega))
    ⟨fun k _ => XToy.rep _, by simp [XToy.point], fun k hk => absurd hk (by omega)⟩ hrep rfl

theorem XToy.finiteData (z u : ℝ) (h0 : 0 ≤ u) (h1 : u < 1) :
    FiniteData XToy.prob (drawing (fun _ : Fin 1 => z) u) :=
  ⟨fun _ => ⟨0, rfl⟩, fun _ v ss h => ⟨fun _ => v 0 * v 0, by cases h; rfl⟩,
    fun _ => ⟨fun _ => z, drawing_randn (fun _ : Fin 1 => z) u _⟩, fun _ => ⟨u, h0, h1, rfl⟩⟩

/-- C10, step level: from 1 the proposal `1 + 10·2` is outside and rejected; a delayed-rejection
step follows, whose proposal `1 + 10/100` is inside, and completes. -/
example : ∃ out z, runMetropolisStep XToy.prob (drawing (fun _ : Fin 1 => 10) (1/2)) (XToy.set 1)
      (fun _ _ => .fin 2) ⟨(), fun _ => .fin 0, []⟩ = .ok (out, z) ∧ out.accept = false ∧
      ∃ res, runDelayedRejection XToy.prob (drawing (fun _ : Fin 1 => 10) (1/2)) (XToy.set 1) out.newSet
        (.some [fun _ _ => .fin 2, fun _ _ => .fin (1/100)]) 2
        (some [fun _ _ => .fin (1/2), fun _ _ => .fin 100]) out.world
        ⟨[0, 0], 0⟩ = .ok res := by
  have hc : ∀ (r : ℝ) (w : World XR Unit 1), (sampleCandidate (drawing (fun _ : Fin 1 => 10) (1/2))
      (XToy.set 1).theta (fun _ _ => .fin r) w).1 = fun _ => .fin (1 + 10 * r) := by
    intro r w
    unfold sampleCandidate
    dsimp only
    rw [drawing_randn, vecMat_fin]
    simp [XToy.set]
  have hout : isOutside (fun _ : Fin 1 => XR.fin (1 + 10 * 2)) XToy.prob.lower XToy.prob.upper = true := by
    unfold isOutside
    simp [XToy.prob, List.finRange]
    norm_num
  have hs : ∃ out z, runMetropolisStep XToy.prob (drawing (fun _ : Fin 1 => 10) (1/2)) (XToy.set 1)
      (fun _ _ => .fin 2) ⟨(), fun _ => .fin 0, []⟩ = .ok (out, z) ∧ out.accept = false ∧
      Represents out.newSet ⟨fun _ => 1 + 10 * 2, none⟩ ∧ out.newSet.sigma2 = fun _ => .fin 1 := by
    unfold runMetropolisStep
    dsimp only
    rw [if_pos (by rw [hc]; exact hout)]
    refine ⟨_, _, rfl, rfl, ?_, rfl⟩
    exact represents_outside (v := fun _ => 1) (hc _ _) rfl (by simp [setOutsideBounds])
      (fun _ => one_pos) rfl
  obtain ⟨out, z, h1, h2, h3, h4⟩ := hs
  refine ⟨out, z, h1, h2, ?_⟩
  have hin : isOutside (fun _ : Fin 1 => XR.fin (1 + 10 * (1/100))) XToy.prob.lower XToy.prob.upper = false :=
    XToy.inside (by norm_num) (by norm_num)
  unfold runDelayedRejection
  rw [drLoop_succ]
  change ∃ res, Except.bind (Except.bind (Except.ok _) _) _ = _
  simp only [Except.bind]
  rw [if_neg (by rw [hc, hin]; simp)]
  obtain ⟨w', hw⟩ := XToy.sos (1 + 10 * (1/100)) (sampleCandidate (drawing (fun _ : Fin 1 => 10) (1/2))
    (XToy.set 1).theta (fun _ _ => XR.fin (1/100)) out.world).2.2
  have hth : (XToy.set (1 + 10 * (1/100))).theta = fun _ => XR.fin (1 + 10 * (1/100)) := rfl
  rw [hth] at hw
  rw [hc, hw]
  simp only [orRaise]
  obtain ⟨a, c, -, -, hac⟩ := alphafun_exists (m := 1) one_pos 1 (invR := [fun _ _ => .fin (1/2), fun _ _ => .fin 100])
    (W := fun _ _ _ => 1/2) (fun k hk => by rw [show k = 0 by omega]; rfl)
    (S := fun k => if k = 0 then XToy.set 1 else if k = 1 then out.newSet else XToy.set (1 + 10 * (1/100)))
    (P := fun k => if k = 0 then XToy.point 1 else if k = 1 then ⟨fun _ => 1 + 10 * 2, none⟩ else
      XToy.point (1 + 10 * (1/100)))
    (fun k hk => by
      rcases (by omega : k = 0 ∨ k = 1 ∨ k = 2) with rfl | rfl | rfl
      · exact XToy.rep _
      · exact h3
      · exact XToy.rep _)
  have hpath : ([XToy.set 1, out.newSet] ++ [(⟨fun _ => .fin (1 + 10 * (1/100)), (XToy.set (1 + 10 * (1/100))).ss,
      XToy.prob.prior (fun _ => .fin (1 + 10 * (1/100))), out.newSet.sigma2, none⟩ : ParamSet XR 1 1)]) =
      pathOf (fun k => if k = 0 then XToy.set 1 else if k = 1 then out.newSet else XToy.set (1 + 10 * (1/100))) 2 := by
    rw [h4]; rfl
  rw [hpath, hac]
  simp only [drRound]
  cases (posteriorRatioTest (drawing (fun _ : Fin 1 => 10) (1/2)) (XR.fin a) w').1
  · exact ⟨_, rfl⟩
  · exact ⟨_, rfl⟩

end Verif
