import Verif.Lemmas.Step

/-! # Invariants of the simulation loop -/

set_option linter.unusedSectionVars false

namespace Verif
variable {F σ : Type} [PyFloat F] {N n m : ℕ}

/-- The state in which the loop is entered. -/
def loopStart (s : SimState F σ N n m) : SimState F σ N n m :=
  { s with iiadapt := 0, savecount := 0, lastbin := 0, rejected := ⟨0, 0, 0⟩ }

/-- Rule for invariants of `executeSimulator`. -/
theorem executeSimulator_inv {E : Env F σ N n m} {s s' : SimState F σ N n m}
    (P : ℕ → SimState F σ N n m → Prop) (h0 : P 1 (loopStart s))
    (hs : ∀ i s s' p, 1 ≤ i → i < E.opts.nsimu → P i s → StepSpec E i s s' p → P (i + 1) s')
    (h : executeSimulator E s = .ok s') :
    1 < E.opts.nsimu ∧ ∃ s1, P E.opts.nsimu s1 ∧
      s' = { s1 with
        logs := s1.logs ++ [mkBlock s1 s1.lastbin E.opts.nsimu]
        covlogs := s1.covlogs ++ [(s1.lastbin, E.opts.nsimu - 1, rtr s1.cov.R)] } := by
  unfold executeSimulator at h
  rw [bind_ok] at h
  obtain ⟨s1, h1, h⟩ := h
  unfold finish at h
  split at h
  · cases h
  · rename_i hn
    refine ⟨by omega, s1, ?_, ?_⟩
    · have := foldlM_range'_inv (P := P) (E.opts.nsimu - 1) 1 _ s1 h0
        (fun i s s' hi hi' hP hst => by
          obtain ⟨p, hp⟩ := simStep_ok hst
          exact hs i s s' p hi (by omega) hP hp) h1
      rwa [show 1 + (E.opts.nsimu - 1) = E.opts.nsimu by omega] at this
    · dsimp only at h
      rw [show E.opts.nsimu - 1 + 1 = E.opts.nsimu by omega] at h
      exact (Except.ok.inj h).symm

/-- How a chain row arises from the one before it and the proposals of the iteration: a repeat
if no proposal was accepted, otherwise the (last and only) accepted proposal. -/
def RowFrom (prev row : Vec F n) (ts : List (Try F n)) : Prop :=
  (row = prev ∧ ∀ t ∈ ts, t.accepted = false) ∨
  ∃ pre t, ts = pre ++ [t] ∧ t.accepted = true ∧ t.outside = false ∧ row = t.theta ∧
    ∀ u ∈ pre, u.accepted = false

/-- Invariant for the recorded rows, relative to the start state `s0`. -/
structure RowInv (P : Problem F N n m) (s0 : SimState F σ N n m) (i : ℕ) (s : SimState F σ N n m) :
    Prop where
  idx : s.chainIndex + 1 = s0.chainIndex + i
  len : s.chain.length = s0.chain.length
  len' : s.sschain.length = s0.sschain.length
  tlen : s.trace.length + 1 = s0.trace.length + i
  pre : ∀ r, r ≤ s0.chainIndex → s.chain[r]? = s0.chain[r]?
  pre' : ∀ r, r ≤ s0.chainIndex → s.sschain[r]? = s0.sschain[r]?
  cur : s.chain[s.chainIndex]? = some s.oldSet.theta
  cur' : s.sschain[s.chainIndex]? = some s.oldSet.ss
  tpre : ∀ j, j < s0.trace.length → s.trace[j]? = s0.trace[j]?
  row : ∀ j, j + 1 < i → ∃ a b ts, s.chain[s0.chainIndex + j]? = some a ∧
    s.chain[s0.chainIndex + j + 1]? = some b ∧ s.trace[s0.trace.length + j]? = some ts ∧
    RowFrom a b ts
  value : ∀ k, (∀ i, P.parind i ≠ k) → s.world.value k = s0.world.value k

theorem RowInv.init {P : Problem F N n m} {s0 : SimState F σ N n m}
    (h1 : s0.chain[s0.chainIndex]? = some s0.oldSet.theta)
    (h2 : s0.sschain[s0.chainIndex]? = some s0.oldSet.ss) : RowInv P s0 1 (loopStart s0) where
  idx := rfl
  len := rfl
  len' := rfl
  tlen := rfl
  pre := fun _ _ => rfl
  pre' := fun _ _ => rfl
  cur := h1
  cur' := h2
  tpre := fun _ _ => rfl
  row := by intro j hj; omega
  value := fun _ _ => rfl

theorem StepSpec.rowFrom {E : Env F σ N n m} {i : ℕ} {s s' : SimState F σ N n m}
    {p : Proposal F σ N n m} (h : StepSpec E i s s' p) :
    RowFrom s.oldSet.theta s'.oldSet.theta p.tries := by
  have hp := propose_ok h.prop
  rw [h.old]
  unfold currentSet
  cases ha : p.accept with
  | false => exact Or.inl ⟨by simp, (hp.rej ha).1⟩
  | true =>
    obtain ⟨_, _, _, pre, h1, h2, _⟩ := hp.acc ha
    exact Or.inr ⟨pre, _, h1, rfl, rfl, by simp, h2⟩

theorem RowInv.step {E : Env F σ N n m} {s0 s s' : SimState F σ N n m} {i : ℕ}
    {p : Proposal F σ N n m} (hi : 1 ≤ i) (h : RowInv E.problem s0 i s) (hs : StepSpec E i s s' p) :
    RowInv E.problem s0 (i + 1) s' where
  idx := by rw [hs.idx]; have := h.idx; omega
  len := by rw [hs.chain]; simpa using h.len
  len' := by rw [hs.sschain]; simpa using h.len'
  tlen := by rw [hs.trace]; have := h.tlen; simp; omega
  pre := by
    intro r hr
    rw [hs.chain, List.getElem?_set_ne (by have := h.idx; omega)]
    exact h.pre r hr
  pre' := by
    intro r hr
    rw [hs.sschain, List.getElem?_set_ne (by have := h.idx; omega)]
    exact h.pre' r hr
  cur := by
    rw [hs.chain, hs.idx, List.getElem?_set_self hs.lt, hs.old]
  cur' := by
    rw [hs.sschain, hs.idx, List.getElem?_set_self hs.lt', hs.old]
  tpre := by
    intro j hj
    rw [hs.trace, List.getElem?_append_left (by have := h.tlen; omega)]
    exact h.tpre j hj
  row := by
    intro j hj
    have hidx := h.idx
    have htl := h.tlen
    by_cases hj' : j + 1 < i
    · obtain ⟨a, b, ts, h1, h2, h3, h4⟩ := h.row j hj'
      refine ⟨a, b, ts, ?_, ?_, ?_, h4⟩
      · rw [hs.chain, List.getElem?_set_ne (by omega)]; exact h1
      · rw [hs.chain, List.getElem?_set_ne (by omega)]; exact h2
      · rw [hs.trace, List.getElem?_append_left (by omega)]; exact h3
    · have hj2 : j + 1 = i := by omega
      refine ⟨s.oldSet.theta, s'.oldSet.theta, p.tries, ?_, ?_, ?_, hs.rowFrom⟩
      · rw [hs.chain, List.getElem?_set_ne (by omega), ← h.cur]
        congr 1; omega
      · rw [hs.chain, show s0.chainIndex + j + 1 = s.chainIndex + 1 by omega,
          List.getElem?_set_self hs.lt, hs.old]
      · rw [hs.trace, List.getElem?_append_right (by omega)]
        rw [show s0.trace.length + j - s.trace.length = 0 by omega]
        rfl
  value := by
    intro k hk
    rw [hs.value]
    exact ((propose_ok hs.prop).calls.value k hk).trans (h.value k hk)

/-- What is true of a pair (chain row, sum-of-squares row): inside the limits, and the
sum-of-squares is the user's function at the row completed with fixed values `fixed`. -/
def RowOk (P : Problem F N n m) (fixed : Vec F N) (theta : Vec F n) (ss : Vec F m) : Prop :=
  isOutside theta P.lower P.upper = false ∧
  ∃ v, (∀ k, (∀ i, P.parind i ≠ k) → v k = fixed k) ∧
    SosAt P.style1 P.sosFun (writeAt P.parind theta v) ss

/-- Every row written in the run is `RowOk`, and so is the current set. -/
structure GoodInv (P : Problem F N n m) (s0 : SimState F σ N n m) (i : ℕ) (s : SimState F σ N n m) :
    Prop where
  idx : s.chainIndex + 1 = s0.chainIndex + i
  len : s.chain.length = s0.chain.length
  len' : s.sschain.length = s0.sschain.length
  pre : ∀ r, r ≤ s0.chainIndex → s.chain[r]? = s0.chain[r]?
  pre' : ∀ r, r ≤ s0.chainIndex → s.sschain[r]? = s0.sschain[r]?
  value : ∀ k, (∀ i, P.parind i ≠ k) → s.world.value k = s0.world.value k
  goodOld : RowOk P s0.world.value s.oldSet.theta s.oldSet.ss
  good : ∀ r, s0.chainIndex < r → r ≤ s.chainIndex → ∃ a b, s.chain[r]? = some a ∧
    s.sschain[r]? = some b ∧ RowOk P s0.world.value a b

theorem GoodInv.init {P : Problem F N n m} {s0 : SimState F σ N n m}
    (h : RowOk P s0.world.value s0.oldSet.theta s0.oldSet.ss) : GoodInv P s0 1 (loopStart s0) where
  idx := rfl
  len := rfl
  len' := rfl
  pre := fun _ _ => rfl
  pre' := fun _ _ => rfl
  value := fun _ _ => rfl
  goodOld := h
  good := by intro r h1 h2; simp only [loopStart] at h2; omega

theorem AcceptedSet.rowOk {P : Problem F N n m} {w : World F σ N} {s : ParamSet F n m}
    {fixed : Vec F N} (h : AcceptedSet P w s)
    (hw : ∀ k, (∀ i, P.parind i ≠ k) → w.value k = fixed k) : RowOk P fixed s.theta s.ss := by
  obtain ⟨h1, ⟨v, h2, h3⟩, _⟩ := h
  exact ⟨h1, v, fun k hk => (h2 k hk).trans (hw k hk), h3⟩

theorem GoodInv.step {E : Env F σ N n m} {s0 s s' : SimState F σ N n m} {i : ℕ}
    {p : Proposal F σ N n m} (hi : 1 ≤ i) (h : GoodInv E.problem s0 i s)
    (hs : StepSpec E i s s' p) : GoodInv E.problem s0 (i + 1) s' := by
  have hcur : RowOk E.problem s0.world.value (currentSet s p).theta (currentSet s p).ss := by
    unfold currentSet
    cases ha : p.accept with
    | true => exact ((propose_ok hs.prop).acc ha).1.rowOk h.value
    | false => exact h.goodOld
  have hlt := hs.lt
  have hlt' := hs.lt'
  have hidx := h.idx
  refine ⟨?_, ?_, ?_, ?_, ?_, ?_, ?_, ?_⟩
  · rw [hs.idx]; omega
  · rw [hs.chain]; simpa using h.len
  · rw [hs.sschain]; simpa using h.len'
  · intro r hr
    rw [hs.chain, List.getElem?_set_ne (by omega)]
    exact h.pre r hr
  · intro r hr
    rw [hs.sschain, List.getElem?_set_ne (by omega)]
    exact h.pre' r hr
  · intro k hk
    rw [hs.value]
    exact ((propose_ok hs.prop).calls.value k hk).trans (h.value k hk)
  · rw [hs.old]; exact hcur
  · intro r hr hr'
    rw [hs.idx] at hr'
    by_cases hrr : r ≤ s.chainIndex
    · obtain ⟨a, b, h1, h2, h3⟩ := h.good r hr hrr
      refine ⟨a, b, ?_, ?_, h3⟩
      · rw [hs.chain, List.getElem?_set_ne (by omega)]; exact h1
      · rw [hs.sschain, List.getElem?_set_ne (by omega)]; exact h2
    · have : r = s.chainIndex + 1 := by omega
      subst this
      exact ⟨_, _, by rw [hs.chain, List.getElem?_set_self hlt],
        by rw [hs.sschain, List.getElem?_set_self hlt'], hcur⟩

/-! ### Counting -/

/-- Invariant for the rejection counters. -/
structure CountInv (s0 : SimState F σ N n m) (i : ℕ) (s : SimState F σ N n m) : Prop where
  trace : ∃ tr, s.trace = s0.trace ++ tr ∧ tr.length + 1 = i ∧
    s.rejected.total = tr.countP (fun ts => ts.all fun t => !t.accepted) ∧
    s.rejected.outside ≤ tr.countP
      (fun ts => ts.all (fun t => !t.accepted) && ts.any fun t => t.outside)
  inInt : s.rejected.inInterval ≤ s.iiadapt

theorem CountInv.step {E : Env F σ N n m} {s0 s s' : SimState F σ N n m} {i : ℕ}
    {p : Proposal F σ N n m} (h : CountInv s0 i s) (hs : StepSpec E i s s' p) :
    CountInv s0 (i + 1) s' where
  trace := by
    obtain ⟨tr, h1, h2, h3, h4⟩ := h.trace
    have hp := propose_ok hs.prop
    refine ⟨tr ++ [p.tries], by rw [hs.trace, h1]; simp, by simp; omega, ?_, ?_⟩
    · rw [hs.rejTotal, h3, List.countP_append]
      congr 1
      cases ha : p.accept with
      | false =>
        have : (p.tries.all fun t => !t.accepted) = true := by
          simpa [List.all_eq_true] using (hp.rej ha).1
        simp [this]
      | true =>
        obtain ⟨_, _, _, pre, h1, h2, _⟩ := hp.acc ha
        simp [h1]
    · rw [hs.rejOut, List.countP_append]
      refine Nat.add_le_add h4 ?_
      by_cases hc : p.accept = false ∧ p.outbound = true
      · obtain ⟨h5, _, h6⟩ := hp.rej hc.1
        obtain ⟨t, ht1, ht2⟩ := h6 hc.2
        have e1 : (p.tries.all fun t => !t.accepted) = true := by
          simpa [List.all_eq_true] using h5
        have e2 : (p.tries.any fun t => t.outside) = true := List.any_eq_true.2 ⟨t, ht1, ht2⟩
        simp [hc, e1, e2]
      · rw [if_neg hc]; exact Nat.zero_le _
  inInt := by
    rw [hs.rejIn, hs.iiadapt]
    have := h.inInt
    split
    · exact le_rfl
    · split <;> omega

/-- acceptance at stage `k + 1`: `k + 1` tries, the last one accepted -/
def acceptedAtStage (k : ℕ) (ts : List (Try F n)) : Bool :=
  decide (ts.length = k + 1) && (ts.any fun t => t.accepted)

/-- Invariant for the per-stage acceptance counters. -/
structure DrInv (ntry : ℕ) (s0 : SimState F σ N n m) (i : ℕ) (s : SimState F σ N n m) : Prop where
  len : s.dr.iacce.length = s0.dr.iacce.length
  trace : ∃ tr, s.trace = s0.trace ++ tr ∧ tr.length + 1 = i ∧
    (∀ ts ∈ tr, ts.length ≤ max ntry 1 ∧ ts ≠ [] ∧
      ((∀ t ∈ ts, t.accepted = false) → ts.length = max ntry 1)) ∧
    ∀ k, 1 ≤ k → k < s0.dr.iacce.length →
      ∃ c0, s0.dr.iacce[k]? = some c0 ∧ s.dr.iacce[k]? = some (c0 + tr.countP (acceptedAtStage k))

theorem DrInv.step {E : Env F σ N n m} {s0 s s' : SimState F σ N n m} {i : ℕ}
    {p : Proposal F σ N n m} (h : DrInv E.opts.ntry s0 i s) (hs : StepSpec E i s s' p) :
    DrInv E.opts.ntry s0 (i + 1) s' := by
  obtain ⟨hl, tr, h1, h2, h3, h4⟩ := h
  have hp := propose_ok hs.prop
  have hlen : p.dr.iacce.length = s.dr.iacce.length := by
    cases ha : p.accept with
    | false => rw [(hp.rej ha).2.1]
    | true =>
      obtain ⟨_, _, _, pre, _, _, h5, h6⟩ := hp.acc ha
      by_cases hpre : pre = []
      · rw [h5 hpre]
      · obtain ⟨c, _, h7⟩ := h6 hpre
        rw [h7]; simp
  refine ⟨by rw [hs.dr, hlen, hl], tr ++ [p.tries], by rw [hs.trace, h1]; simp, by simp; omega,
    ?_, ?_⟩
  · intro ts hts
    rcases List.mem_append.1 hts with hts | hts
    · exact h3 ts hts
    · rw [List.mem_singleton.1 hts]
      refine ⟨hp.len, hp.ne, fun hall => ?_⟩
      cases ha : p.accept with
      | false => exact hp.lenRej ha
      | true =>
        obtain ⟨_, _, _, pre, h5, _⟩ := hp.acc ha
        have := hall _ (by rw [h5]; simp : (⟨p.newSet.theta, false, true⟩ : Try F n) ∈ p.tries)
        simp at this
  · intro k hk hk'
    obtain ⟨c0, h5, h6⟩ := h4 k hk hk'
    refine ⟨c0, h5, ?_⟩
    rw [hs.dr, List.countP_append, ← Nat.add_assoc]
    cases ha : p.accept with
    | false =>
      have hr := (hp.rej ha)
      have : acceptedAtStage k p.tries = false := by
        unfold acceptedAtStage
        have : (p.tries.any fun t => t.accepted) = false := by
          simpa [List.any_eq_false] using hr.1
        simp [this]
      rw [hr.2.1, h6]; simp [this]
    | true =>
      obtain ⟨_, _, _, pre, h7, _, h8, h9⟩ := hp.acc ha
      have hany : (p.tries.any fun t => t.accepted) = true := by rw [h7]; simp
      by_cases hpre : pre = []
      · have : acceptedAtStage k p.tries = false := by
          unfold acceptedAtStage
          rw [h7, hpre]; simp; omega
        rw [h8 hpre, h6]; simp [this]
      · obtain ⟨c, h10, h11⟩ := h9 hpre
        rw [h11]
        by_cases hkl : pre.length = k
        · have : acceptedAtStage k p.tries = true := by
            unfold acceptedAtStage
            rw [hany]; simp [h7, hkl]
          rw [hkl] at h10 ⊢
          rw [h6] at h10
          cases h10
          rw [List.getElem?_set_self (by
            rw [hl]; exact hk')]
          simp [this]
        · have : acceptedAtStage k p.tries = false := by
            unfold acceptedAtStage
            simp [h7, hkl]
          rw [List.getElem?_set_ne hkl, h6]; simp [this]

/-! ### Calls of the user's function -/

structure CallInv (P : Problem F N n m) (s0 : SimState F σ N n m) (i : ℕ)
    (s : SimState F σ N n m) : Prop where
  value : ∀ k, (∀ i, P.parind i ≠ k) → s.world.value k = s0.world.value k
  calls : ∃ new tr, s.world.calls = new ++ s0.world.calls ∧ s.trace = s0.trace ++ tr ∧
    ∀ v ∈ new, ∃ ts ∈ tr, ∃ t ∈ ts, t.outside = false ∧
      (∀ k, (∀ i, P.parind i ≠ k) → v k = s0.world.value k) ∧ ∃ val, v = writeAt P.parind t.theta val

theorem CallInv.step {E : Env F σ N n m} {s0 s s' : SimState F σ N n m} {i : ℕ}
    {p : Proposal F σ N n m} (h : CallInv E.problem s0 i s) (hs : StepSpec E i s s' p) :
    CallInv E.problem s0 (i + 1) s' := by
  obtain ⟨hv, new, tr, h1, h2, h3⟩ := h
  have hp := propose_ok hs.prop
  obtain ⟨new', h4, h5⟩ := hp.calls.calls
  refine ⟨fun k hk => ?_, new' ++ new, tr ++ [p.tries], ?_, ?_, ?_⟩
  · rw [hs.value]; exact (hp.calls.value k hk).trans (hv k hk)
  · rw [hs.calls, h4, h1]; simp
  · rw [hs.trace, h2]; simp
  · intro v hvv
    rcases List.mem_append.1 hvv with hvv | hvv
    · obtain ⟨t, ht, ho, hf, hw⟩ := h5 v hvv
      exact ⟨p.tries, by simp, t, ht, ho, fun k hk => (hf k hk).trans (hv k hk), hw⟩
    · obtain ⟨ts, hts, r⟩ := h3 v hvv
      exact ⟨ts, by simp [hts], r⟩

/-! ### Adaptation schedule -/

structure SchedInv (adaptint : ℤ) (s0 : SimState F σ N n m) (i : ℕ) (s : SimState F σ N n m) :
    Prop where
  never : adaptint ≤ 0 → s.adaptedAt = s0.adaptedAt
  ii : 0 < adaptint → (s.iiadapt : ℤ) = ((i - 1 : ℕ) : ℤ) % adaptint
  at_ : 0 < adaptint → s.adaptedAt = s0.adaptedAt ++
    (List.range' 1 (i - 1)).filter (fun (j : ℕ) => decide ((j : ℤ) % adaptint = 0))

theorem SchedInv.step {E : Env F σ N n m} {s0 s s' : SimState F σ N n m} {i : ℕ}
    {p : Proposal F σ N n m} (hi : 1 ≤ i) (h : SchedInv E.opts.adaptint s0 i s)
    (hs : StepSpec E i s s' p) : SchedInv E.opts.adaptint s0 (i + 1) s' := by
  obtain ⟨h1, h2, h3⟩ := h
  have key : 0 < E.opts.adaptint → (adaptNow E s ↔ (i : ℤ) % E.opts.adaptint = 0) ∧
      (¬ adaptNow E s → ((s.iiadapt : ℤ) + 1) = (i : ℤ) % E.opts.adaptint) := by
    intro hk
    have e := h2 hk
    have hlt := Int.emod_lt_of_pos ((i - 1 : ℕ) : ℤ) hk
    have hnn := Int.emod_nonneg ((i - 1 : ℕ) : ℤ) (by omega : E.opts.adaptint ≠ 0)
    have hi' : ((i : ℕ) : ℤ) = ((i - 1 : ℕ) : ℤ) + 1 := by omega
    have hdm := Int.emod_add_mul_ediv ((i - 1 : ℕ) : ℤ) E.opts.adaptint
    unfold adaptNow
    push_cast
    by_cases hc : (s.iiadapt : ℤ) + 1 = E.opts.adaptint
    · have : (i : ℤ) % E.opts.adaptint = 0 := by
        rw [hi', ← hdm, ← e]
        have : (s.iiadapt : ℤ) + E.opts.adaptint * (((i - 1 : ℕ) : ℤ) / E.opts.adaptint) + 1
          = E.opts.adaptint + E.opts.adaptint * (((i - 1 : ℕ) : ℤ) / E.opts.adaptint) := by omega
        rw [this]; simp
      exact ⟨⟨fun _ => this, fun _ => ⟨hk, hc⟩⟩, fun hn => absurd ⟨hk, hc⟩ hn⟩
    · have : (i : ℤ) % E.opts.adaptint = s.iiadapt + 1 := by
        rw [hi', ← hdm, ← e]
        have : (s.iiadapt : ℤ) + E.opts.adaptint * (((i - 1 : ℕ) : ℤ) / E.opts.adaptint) + 1
          = (s.iiadapt + 1) + E.opts.adaptint * (((i - 1 : ℕ) : ℤ) / E.opts.adaptint) := by omega
        rw [this, Int.add_mul_emod_self_left]
        exact Int.emod_eq_of_lt (by omega) (by omega)
      refine ⟨⟨fun hn => absurd hn.2 hc, fun hz => ?_⟩, fun _ => this.symm⟩
      omega
  refine ⟨fun hk => ?_, fun hk => ?_, fun hk => ?_⟩
  · have : ¬ adaptNow E s := fun hn => by have := hn.1; omega
    rw [hs.adaptedAt, if_neg this, h1 hk]; simp
  · rw [hs.iiadapt, Nat.add_sub_cancel]
    split
    · rename_i ha; rw [((key hk).1.1 ha)]; rfl
    · rename_i ha; rw [← (key hk).2 ha]; push_cast; rfl
  · rw [hs.adaptedAt, h3 hk, Nat.add_sub_cancel, List.append_assoc]
    congr 1
    obtain ⟨j, rfl⟩ : ∃ j, i = j + 1 := ⟨i - 1, by omega⟩
    rw [Nat.add_sub_cancel, List.range'_concat, List.filter_append]
    congr 1
    by_cases ha : adaptNow E s
    · have := (key hk).1.1 ha
      rw [if_pos ha]
      rw [List.filter_singleton]
      rw [show 1 + 1 * j = j + 1 by omega]
      simp only [this, decide_true, cond_true]
    · have : ¬ ((j + 1 : ℕ) : ℤ) % E.opts.adaptint = 0 := fun hz => ha ((key hk).1.2 hz)
      rw [if_neg ha, List.filter_singleton, show 1 + 1 * j = j + 1 by omega]
      simp only [this, decide_false, cond_false]

/-! ### Log blocks -/

theorem pySlice_set {α : Type} {l : List α} {a b k : ℕ} {x : α} (h : b ≤ k) :
    pySlice (l.set k x) a b = pySlice l a b := by
  unfold pySlice
  rw [List.take_set_of_le h]

theorem StepSpec.mkBlock {E : Env F σ N n m} {i : ℕ} {s s' : SimState F σ N n m}
    {p : Proposal F σ N n m} (h : StepSpec E i s s' p) {a b : ℕ} (hb : b ≤ s.chainIndex + 1) :
    mkBlock s' a b = mkBlock s a b := by
  unfold Verif.mkBlock
  rw [h.logSource]
  cases s.logSource with
  | stale c ss s2 => rfl
  | live =>
    dsimp only
    rw [h.chain, h.sschain, pySlice_set hb, pySlice_set hb]
    congr 1
    have he := h.errModel
    split at he
    · obtain ⟨c, r, h1, _, h2, _⟩ := he
      rw [h1, h2]
      simp [pySlice_set hb]
    · rw [he.2.1]

/-- The blocks written so far. -/
structure LogInv (sz : ℕ) (s0 : SimState F σ N n m) (i : ℕ) (s : SimState F σ N n m) : Prop where
  idx : s.chainIndex + 1 = s0.chainIndex + i
  savecount : s.savecount = (i - 1) % sz
  lastbin : s.lastbin = (i - 1) / sz * sz
  logs : s.logs = s0.logs ++ (List.range ((i - 1) / sz)).map fun j => mkBlock s (j * sz) ((j + 1) * sz)

theorem LogInv.init {sz : ℕ} (s0 : SimState F σ N n m) :
    LogInv sz s0 1 (loopStart s0) where
  idx := rfl
  savecount := by simp [loopStart]
  lastbin := by simp [loopStart]
  logs := by simp [loopStart]

theorem LogInv.step {E : Env F σ N n m} {s0 s s' : SimState F σ N n m} {i : ℕ}
    {p : Proposal F σ N n m} (hsz : 1 ≤ E.opts.savesize) (hi : 1 ≤ i)
    (h : LogInv E.opts.savesize s0 i s) (hs : StepSpec E i s s' p) :
    LogInv E.opts.savesize s0 (i + 1) s' := by
  obtain ⟨h1, h2, h3, h4⟩ := h
  obtain ⟨j, rfl⟩ : ∃ j, i = j + 1 := ⟨i - 1, by omega⟩
  simp only [Nat.add_sub_cancel] at h2 h3 h4 ⊢
  have hmod := Nat.mod_add_div j E.opts.savesize
  have hlt := Nat.mod_lt j (show 0 < E.opts.savesize by omega)
  have hold : ∀ a, a < j / E.opts.savesize → mkBlock s' (a * E.opts.savesize)
      ((a + 1) * E.opts.savesize) = mkBlock s (a * E.opts.savesize) ((a + 1) * E.opts.savesize) := by
    intro a ha
    apply hs.mkBlock
    have : (a + 1) * E.opts.savesize ≤ j / E.opts.savesize * E.opts.savesize :=
      Nat.mul_le_mul_right _ ha
    have : j / E.opts.savesize * E.opts.savesize ≤ j := Nat.div_mul_le_self _ _
    omega
  by_cases hc : s.savecount + 1 = E.opts.savesize
  · have hdiv : (j + 1) / E.opts.savesize = j / E.opts.savesize + 1 := by
      apply Nat.div_eq_of_lt_le
      · rw [Nat.add_mul, Nat.mul_comm]; omega
      · rw [Nat.add_mul, Nat.add_mul, Nat.mul_comm]; omega
    have hmul : (j / E.opts.savesize + 1) * E.opts.savesize = j + 1 := by
      rw [Nat.add_mul, Nat.mul_comm]; omega
    refine ⟨?_, ?_, ?_, ?_⟩
    · rw [hs.idx]; omega
    · rw [hs.savecount, if_pos hc, Nat.add_sub_cancel, ← hmul]; simp
    · rw [hs.lastbin, if_pos hc, Nat.add_sub_cancel, hdiv, hmul]
    · rw [hs.logs, if_pos hc, h4, Nat.add_sub_cancel, hdiv, List.range_succ, List.map_append, List.append_assoc]
      congr 1
      congr 1
      · apply List.map_congr_left
        intro a ha
        exact (hold a (List.mem_range.1 ha)).symm
      · simp only [List.map_cons, List.map_nil]
        congr 2
        · rw [← hmul, Nat.add_mul]; omega
        · exact hmul.symm
  · have hdiv : (j + 1) / E.opts.savesize = j / E.opts.savesize := by
      apply Nat.div_eq_of_lt_le
      · rw [Nat.mul_comm]; omega
      · rw [Nat.add_mul, Nat.mul_comm]; omega
    have hm2 : (j + 1) % E.opts.savesize = j % E.opts.savesize + 1 := by
      have := Nat.mod_add_div (j + 1) E.opts.savesize
      rw [hdiv] at this
      omega
    refine ⟨?_, ?_, ?_, ?_⟩
    · rw [hs.idx]; omega
    · rw [hs.savecount, if_neg hc, Nat.add_sub_cancel, hm2, h2]
    · rw [hs.lastbin, if_neg hc, Nat.add_sub_cancel, hdiv, h3]
    · rw [hs.logs, if_neg hc, h4, Nat.add_sub_cancel, hdiv, List.append_nil]
      congr 1
      apply List.map_congr_left
      intro a ha
      exact (hold a (List.mem_range.1 ha)).symm

/-- Consecutive slices put together. -/
theorem flatMap_slices {α : Type} (l : List α) (sz : ℕ) :
    ∀ k, (List.range k).flatMap (fun j => pySlice l (j * sz) ((j + 1) * sz)) = pySlice l 0 (k * sz)
  | 0 => by simp [pySlice]
  | k + 1 => by
      rw [List.range_succ, List.flatMap_append, flatMap_slices l sz k]
      simp only [List.flatMap_cons, List.flatMap_nil, List.append_nil, pySlice, List.drop_zero]
      have h1 : (l.take ((k + 1) * sz)).take (k * sz) = l.take (k * sz) := by
        rw [List.take_take, min_eq_left (Nat.mul_le_mul_right _ (by omega))]
      conv_rhs => rw [← List.take_append_drop (k * sz) (l.take ((k + 1) * sz)), h1]

end Verif

namespace Verif
variable {F σ : Type} [PyFloat F] {N n m : ℕ}

/-- Iterations since the last adaptation, and the covariance object between adaptations. -/
structure SinceInv (s0 : SimState F σ N n m) (i : ℕ) (s : SimState F σ N n m) : Prop where
  since : s.iiadapt + s.adaptedAt.getLast?.getD 0 + 1 = i
  cov : s.adaptedAt = [] → s.cov = s0.cov

theorem SinceInv.init {s0 : SimState F σ N n m} (h : s0.adaptedAt = []) :
    SinceInv s0 1 (loopStart s0) := ⟨by simp [loopStart, h], fun _ => rfl⟩

theorem SinceInv.step {E : Env F σ N n m} {s0 s s' : SimState F σ N n m} {i : ℕ}
    {p : Proposal F σ N n m} (h : SinceInv s0 i s) (hs : StepSpec E i s s' p) :
    SinceInv s0 (i + 1) s' := by
  have h1 := h.since
  have hc := hs.cov
  by_cases ha : adaptNow E s
  · refine ⟨?_, ?_⟩
    · rw [hs.iiadapt, hs.adaptedAt, if_pos ha, if_pos ha]; simp
    · rw [hs.adaptedAt, if_pos ha]; simp
  · rw [if_neg ha] at hc
    refine ⟨?_, ?_⟩
    · rw [hs.iiadapt, hs.adaptedAt, if_neg ha, if_neg ha]; simp; omega
    · rw [hs.adaptedAt, if_neg ha, hc, List.append_nil]; exact h.cov

/-- Every proposal recorded in the trace is marked outside exactly when it is. -/
structure TraceInv (P : Problem F N n m) (s0 : SimState F σ N n m) (i : ℕ)
    (s : SimState F σ N n m) : Prop where
  trace : ∃ tr, s.trace = s0.trace ++ tr ∧ tr.length + 1 = i ∧
    ∀ ts ∈ tr, ts ≠ [] ∧ ∀ t ∈ ts, t.outside = isOutside t.theta P.lower P.upper

theorem TraceInv.step {E : Env F σ N n m} {s0 s s' : SimState F σ N n m} {i : ℕ}
    {p : Proposal F σ N n m} (h : TraceInv E.problem s0 i s) (hs : StepSpec E i s s' p) :
    TraceInv E.problem s0 (i + 1) s' := by
  obtain ⟨tr, h1, h2, h3⟩ := h.trace
  have hp := propose_ok hs.prop
  refine ⟨tr ++ [p.tries], by rw [hs.trace, h1]; simp, by simp; omega, ?_⟩
  intro ts hts
  rcases List.mem_append.1 hts with hts | hts
  · exact h3 ts hts
  · rw [List.mem_singleton.1 hts]; exact ⟨hp.ne, hp.out⟩

end Verif
