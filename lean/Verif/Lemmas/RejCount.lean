import Verif.Lemmas.History

/-! # Exact rejection counts -/

set_option linter.unusedSectionVars false

namespace Verif
variable {F σ : Type} [PyFloat F] {N n m : ℕ}

/-- the last proposal of an iteration was outside the limits -/
def lastOutside (ts : List (Try F n)) : Bool := ts.getLast?.any fun t => t.outside

theorem lastOutside_append (l : List (Try F n)) (t : Try F n) : lastOutside (l ++ [t]) = t.outside := by
  unfold lastOutside
  simp

theorem drLoop_outside {P : Problem F N n m} {G : Rng σ F} {old : ParamSet F n m} {sigma2 : Vec F m}
    {RDR : Slot (List (Mat F n))} {invR : Option (List (Mat F n))} :
    ∀ (left itry : ℕ) (path : List (ParamSet F n m)) (o o' : DrOut F σ N n m),
    (∀ s b, o.outSet = some (s, b) → lastOutside o.tries = b ∧ o.tries ≠ []) →
    drLoop P G old sigma2 RDR invR left itry path o = .ok o' →
    ∀ s b, o'.outSet = some (s, b) → lastOutside o'.tries = b ∧ o'.tries ≠ []
  | 0, _, _, o, o', h0, h => by
      unfold drLoop at h
      cases h
      exact h0
  | left + 1, itry, path, o, o', h0, h => by
      unfold drLoop at h
      obtain ⟨R, _, h⟩ := bind_ok.1 h
      dsimp only at h
      split at h
      · refine drLoop_outside left _ _ _ o' ?_ h
        intro s b hb
        simp only [Option.some.injEq, Prod.mk.injEq] at hb
        exact ⟨by rw [lastOutside_append]; exact hb.2, by simp⟩
      · obtain ⟨e, _, h⟩ := bind_ok.1 h
        obtain ⟨inv, _, h⟩ := bind_ok.1 h
        obtain ⟨ac, _, h⟩ := bind_ok.1 h
        obtain ⟨_, _, h⟩ := bind_ok.1 h
        obtain ⟨_, _, h⟩ := bind_ok.1 h
        split at h
        · cases h
          intro s b hb
          simp only [Option.some.injEq, Prod.mk.injEq] at hb
          exact ⟨by rw [lastOutside_append]; exact hb.2, by simp⟩
        · refine drLoop_outside left _ _ _ o' ?_ h
          intro s b hb
          simp only [Option.some.injEq, Prod.mk.injEq] at hb
          exact ⟨by rw [lastOutside_append]; exact hb.2, by simp⟩

theorem propose_outbound {E : Env F σ N n m} {s : SimState F σ N n m} {p : Proposal F σ N n m}
    (h : propose E s = .ok p) : p.outbound = lastOutside p.tries := by
  unfold propose at h
  obtain ⟨⟨o, z⟩, _, h⟩ := bind_ok.1 h
  dsimp only at h
  split at h
  · obtain ⟨⟨o2, dr, ts⟩, h2, h⟩ := bind_ok.1 h
    cases h
    unfold runDelayedRejection at h2
    obtain ⟨d, hd, h2⟩ := bind_ok.1 h2
    have := drLoop_outside _ _ _ _ _ (by simp) hd
    split at h2
    · rename_i s' b hb
      cases h2
      obtain ⟨h3, h4⟩ := this _ _ hb
      dsimp only
      rw [← h3]
      obtain ⟨l, t, ht⟩ : ∃ l t, d.tries = l ++ [t] :=
        ⟨_, _, (List.dropLast_append_getLast h4).symm⟩
      rw [ht, ← List.cons_append, lastOutside_append, lastOutside_append]
    · cases h2
  · cases h
    rfl

/-- a rejected move whose last proposal was outside the limits -/
def rejectedOutside (ts : List (Try F n)) : Bool := Rejection ts && lastOutside ts

theorem propose_rejection {E : Env F σ N n m} {s : SimState F σ N n m} {p : Proposal F σ N n m}
    (h : propose E s = .ok p) : Rejection p.tries = !p.accept := by
  have hp := propose_ok h
  cases ha : p.accept with
  | false =>
    have := (hp.rej ha).1
    unfold Rejection
    simp only [Bool.not_false, List.all_eq_true, Bool.not_eq_true']
    exact this
  | true =>
    obtain ⟨_, _, _, pre, h1, _⟩ := hp.acc ha
    rw [h1]
    simp [Rejection]

/-- the counts before iteration `i` -/
structure RejInv (i : ℕ) (s : SimState F σ N n m) : Prop where
  len : s.trace.length + 1 = i
  total : s.rejected.total = s.trace.countP Rejection
  outside : s.rejected.outside = s.trace.countP rejectedOutside
  since : s.iiadapt + s.adaptedAt.getLast?.getD 0 = s.trace.length
  interval : s.rejected.inInterval = (s.trace.drop (s.adaptedAt.getLast?.getD 0)).countP Rejection
  sorted : ∀ a ∈ s.adaptedAt, a < i

theorem RejInv.init {s : SimState F σ N n m} (h1 : s.trace = []) (h2 : s.adaptedAt = []) :
    RejInv 1 (loopStart s) :=
  ⟨by simp [loopStart, h1], by simp [loopStart, h1], by simp [loopStart, h1],
    by simp [loopStart, h1, h2], by simp [loopStart, h1], by simp [loopStart, h2]⟩

theorem RejInv.step {E : Env F σ N n m} {s s' : SimState F σ N n m} {i : ℕ} {p : Proposal F σ N n m}
    (h : RejInv i s) (hs : StepSpec E i s s' p) : RejInv (i + 1) s' := by
  have hr := propose_rejection hs.prop
  have ho := propose_outbound hs.prop
  have hl := h.len
  have hsi := h.since
  have hlen : s'.trace.length = s.trace.length + 1 := by rw [hs.trace]; simp
  refine ⟨by omega, ?_, ?_, ?_, ?_, ?_⟩
  · rw [hs.rejTotal, hs.trace, List.countP_append, h.total]
    cases ha : p.accept <;> simp [hr, ha]
  · rw [hs.rejOut, hs.trace, List.countP_append, h.outside]
    cases ha : p.accept <;> cases hb : p.outbound <;> simp [rejectedOutside, hr, ha, ← ho, hb]
  · rw [hs.iiadapt, hs.adaptedAt, hlen]
    by_cases hc : adaptNow E s
    · simp [hc]; omega
    · simp [hc]; omega
  · rw [hs.rejIn, hs.adaptedAt]
    by_cases hc : adaptNow E s
    · have : s'.trace.drop i = [] := by rw [List.drop_eq_nil_iff]; omega
      simp [hc, this]
    · simp only [hc, if_false, List.append_nil]
      rw [hs.trace, List.drop_append_of_le_length (by omega), List.countP_append, h.interval]
      cases ha : p.accept <;> simp [hr, ha]
  · rw [hs.adaptedAt]
    intro a ha
    rcases List.mem_append.1 ha with ha | ha
    · have := h.sorted a ha; omega
    · split at ha
      · simp only [List.mem_singleton] at ha; omega
      · cases ha

theorem rejection_counts_exact {flags : Fin N → Bool} {U : UserFuns F N (nS flags) m} {o : Obj F flags m}
    {G : Rng σ F} {L : Lapack F} {fuel : ℕ} {rng : σ} {up : Bool}
    {out : RunOut F σ flags m} (h : runSimulation U G L fuel o rng up = .ok out) :
    out.results.rejected.outside = out.final.trace.countP rejectedOutside ∧
    out.results.rejected.inInterval =
      (out.final.trace.drop (out.final.adaptedAt.getLast?.getD 0)).countP Rejection := by
  obtain ⟨o1, I, s0, h1, h2, h3, h4, h5⟩ := runSimulation_ok h
  obtain ⟨_, _, _, hrej, _⟩ := generateResults_ok h3
  have hst : StartSpec U o o1 rng I s0 := by
    cases up with
    | false => exact (setup_fresh h1).1
    | true => exact (setup_continue h1).1
  obtain ⟨hn, s1, hP, hfin⟩ := executeSimulator_inv (P := RejInv)
    (RejInv.init hst.trace hst.adaptedAt) (fun i a b p _ _ hP hp => hP.step hp) h2
  rw [hrej, hfin]
  exact ⟨hP.outside, hP.interval⟩

end Verif
