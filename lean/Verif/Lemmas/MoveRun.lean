import Verif.Lemmas.Continue

/-! # What the samplers are given in every iteration of a run -/

set_option linter.unusedSectionVars false

namespace Verif
variable {F σ : Type} [PyFloat F] {N n m : ℕ}

/-- The first proposal of an iteration that starts in `r`, with `fixed` the full vector outside the
sampled parameters. -/
structure FirstTry (P : Problem F N n m) (G : Rng σ F) (r : MoveRecord F σ n m) (fixed : Vec F N)
    (t : Try F n) : Prop where
  theta : ∀ j, t.theta j = r.before.theta j + vsum fun i => (G.randn n r.rng).1 i * r.R i j
  outside : t.outside = isOutside t.theta P.lower P.upper
  out : t.outside = true → t.accepted = false
  inside : t.outside = false →
    ∃ ss val, (∀ k, (∀ i, P.parind i ≠ k) → val k = fixed k) ∧
      SosAt P.style1 P.sosFun (writeAt P.parind t.theta val) ss ∧
      t.accepted = PyFloat.lt (PyFloat.log (G.rand (G.randn n r.rng).2).1)
        (lit (-1/2) * vsum (fun i => ss i / r.before.sigma2 i) + lit (-1/2) * P.prior t.theta
          - (lit (-1/2) * vsum (fun i => r.before.ss i / r.before.sigma2 i)
            + lit (-1/2) * r.before.prior))

theorem propose_first {E : Env F σ N n m} {s : SimState F σ N n m} {p : Proposal F σ N n m}
    (h : propose E s = .ok p) :
    ∃ t ts, p.tries = t :: ts ∧
      FirstTry E.problem E.rng ⟨s.oldSet, s.cov.R, s.cov.RDR, s.cov.invR, s.world.rng, p.world.rng⟩ s.world.value t := by
  unfold propose at h
  rw [bind_ok] at h
  obtain ⟨⟨o, z⟩, h1, h⟩ := h
  have hft : FirstTry E.problem E.rng ⟨s.oldSet, s.cov.R, s.cov.RDR, s.cov.invR, s.world.rng, p.world.rng⟩ s.world.value
      ⟨o.newSet.theta, o.outbound, o.accept⟩ := by
    clear h
    unfold runMetropolisStep at h1
    dsimp only at h1
    split at h1
    · rename_i ho
      cases h1
      exact ⟨fun j => rfl, ho.symm, fun _ => rfl, fun h => by cases h⟩
    · rename_i ho
      rw [bind_ok] at h1
      obtain ⟨e, he, h1⟩ := h1
      cases h1
      obtain ⟨g1, g2, g3, -⟩ := evaluateSos_ok he
      refine ⟨fun j => rfl, ?_, fun h => (by cases h), fun _ => ⟨e.1, _, fun _ _ => rfl, g1, ?_⟩⟩
      · dsimp only
        rw [Bool.not_eq_true] at ho
        exact ho.symm
      · dsimp only [logPosteriorRatioTest, calcLogPosteriorRatio, logLike]
        rw [g3]
        rfl
  dsimp only at h
  split at h
  · rw [bind_ok] at h
    obtain ⟨⟨o2, dr, ts⟩, h2, h⟩ := h
    cases h
    exact ⟨_, _, rfl, hft⟩
  · cases h
    exact ⟨_, _, rfl, hft⟩

/-- the factor in force after the adaptations `l`, if it was `R0` at first -/
def factorAfter (R0 : Mat F n) (l : List (AdaptRecord F n)) : Mat F n :=
  (l.getLast?.map fun a => a.after.R).getD R0

/-- Invariant: the entries of the move log. -/
structure MoveInv (E : Env F σ N n m) (s0 : SimState F σ N n m) (i : ℕ) (s : SimState F σ N n m) :
    Prop where
  idx : s.chainIndex + 1 = s0.chainIndex + i
  len : s.moveLog.length + 1 = i
  tlen : s.trace.length + 1 = i
  cur : s.chain[s.chainIndex]? = some s.oldSet.theta
  cur' : s.sschain[s.chainIndex]? = some s.oldSet.ss
  prior : s.oldSet.prior = E.problem.prior s.oldSet.theta
  value : ∀ k, (∀ i, E.problem.parind i ≠ k) → s.world.value k = s0.world.value k
  start : i = 1 → s.oldSet = s0.oldSet
  sig : E.opts.updatesigma = true → 1 < i ∨ (∃ c, s0.s2chain = some c ∧
      c[s0.chainIndex]? = some s0.oldSet.sigma2) →
    ∃ c, s.s2chain = some c ∧ c[s.chainIndex]? = some s.oldSet.sigma2
  nosig : E.opts.updatesigma = false → s.oldSet.sigma2 = s0.oldSet.sigma2
  at_ : ∀ a ∈ s.adaptLog, a.at_ < i
  factor : s.cov.R = factorAfter s0.cov.R s.adaptLog
  moves : ∀ j r ts, s.moveLog[j]? = some r → s.trace[j]? = some ts →
    s.chain[s0.chainIndex + j]? = some r.before.theta ∧
    s.sschain[s0.chainIndex + j]? = some r.before.ss ∧
    r.before.prior = E.problem.prior r.before.theta ∧
    (j = 0 → r.before = s0.oldSet) ∧
    (E.opts.updatesigma = true → 0 < j ∨ (∃ c, s0.s2chain = some c ∧
      c[s0.chainIndex]? = some s0.oldSet.sigma2) →
      ∃ c, s.s2chain = some c ∧ c[s0.chainIndex + j]? = some r.before.sigma2) ∧
    (E.opts.updatesigma = false → r.before.sigma2 = s0.oldSet.sigma2) ∧
    r.R = factorAfter s0.cov.R (s.adaptLog.filter fun a => decide (a.at_ ≤ j)) ∧
    ∃ t ts', ts = t :: ts' ∧ FirstTry E.problem E.rng r s0.world.value t

theorem FirstTry.fixed {P : Problem F N n m} {G : Rng σ F} {r : MoveRecord F σ n m} {v w : Vec F N}
    {t : Try F n} (hv : ∀ k, (∀ i, P.parind i ≠ k) → v k = w k) (h : FirstTry P G r v t) :
    FirstTry P G r w t := by
  refine ⟨h.theta, h.outside, h.out, fun ho => ?_⟩
  obtain ⟨ss, val, b, c⟩ := h.inside ho
  exact ⟨ss, val, fun k hk => (b k hk).trans (hv k hk), c⟩

theorem MoveInv.step {E : Env F σ N n m} {s0 s s' : SimState F σ N n m} {i : ℕ}
    {p : Proposal F σ N n m} (hi : 1 ≤ i)
    (h : MoveInv E s0 i s) (hs : StepSpec E i s s' p) : MoveInv E s0 (i + 1) s' := by
  have hidx := h.idx
  have hlen := h.len
  have htlen := h.tlen
  have hp := propose_ok hs.prop
  refine ⟨by rw [hs.idx]; omega, by rw [hs.moveLog]; simp; omega, by rw [hs.trace]; simp; omega,
    by rw [hs.chain, hs.idx, List.getElem?_set_self hs.lt, hs.old],
    by rw [hs.sschain, hs.idx, List.getElem?_set_self hs.lt', hs.old], ?_, ?_, by omega, ?_, ?_, ?_, ?_, ?_⟩
  · rw [hs.old]
    dsimp only
    unfold currentSet
    cases ha : p.accept with
    | false => exact h.prior
    | true => exact (hp.acc ha).1.prior
  · intro k hk
    rw [hs.value]
    exact (hp.calls.value k hk).trans (h.value k hk)
  · intro hu _
    have he := hs.errModel
    rw [if_pos hu] at he
    obtain ⟨c, r, e1, e2, e3, -⟩ := he
    have := hs.oldSig
    rw [if_pos hu] at this
    exact ⟨_, e3, by rw [hs.idx, this, List.getElem?_set_self e2]⟩
  · intro hu
    have := hs.oldSig
    rw [if_neg (by simp [hu])] at this
    rw [this, ← h.nosig hu]
    unfold currentSet
    cases ha : p.accept with
    | false => rfl
    | true => exact (hp.acc ha).2.1
  · intro a ha
    rw [hs.adaptLog] at ha
    rcases List.mem_append.1 ha with ha | ha
    · have := h.at_ a ha; omega
    · split at ha
      · rw [List.mem_singleton.1 ha]; exact Nat.lt_succ_self i
      · cases ha
  · have hc := hs.cov
    rw [hs.adaptLog]
    split at hc
    · rename_i had
      rw [if_pos had]
      simp [factorAfter]
    · rename_i had
      rw [if_neg had, List.append_nil, hc, h.factor]
  · intro j r ts hr hts
    have hfil : ∀ j', j' < i → s'.adaptLog.filter (fun a => decide (a.at_ ≤ j')) =
        s.adaptLog.filter (fun a => decide (a.at_ ≤ j')) := by
      intro j' hj'
      rw [hs.adaptLog, List.filter_append]
      split
      · simp; omega
      · simp
    rw [hs.moveLog] at hr
    rw [hs.trace] at hts
    by_cases hj : j + 1 < i
    · rw [List.getElem?_append_left (by omega)] at hr hts
      obtain ⟨g1, g2, g3, g4, g5, g6, g7, g8⟩ := h.moves j r ts hr hts
      refine ⟨?_, ?_, g3, g4, fun hu hor => ?_, g6, ?_, g8⟩
      · rw [hs.chain, List.getElem?_set_ne (by omega)]; exact g1
      · rw [hs.sschain, List.getElem?_set_ne (by omega)]; exact g2
      · obtain ⟨c, c1, c2⟩ := g5 hu hor
        have he := hs.errModel
        rw [if_pos hu] at he
        obtain ⟨c', r', e1, e2, e3, -⟩ := he
        rw [c1] at e1
        cases e1
        exact ⟨_, e3, by rw [List.getElem?_set_ne (by omega)]; exact c2⟩
      · rw [hfil j (by omega)]; exact g7
    · have hj' : j + 1 = i := by
        have := (List.getElem?_eq_some_iff.1 hr).1
        simp at this
        omega
      rw [List.getElem?_append_right (by omega), show j - s.moveLog.length = 0 by omega] at hr
      rw [List.getElem?_append_right (by omega), show j - s.trace.length = 0 by omega] at hts
      simp only [List.getElem?_cons_zero, Option.some.injEq] at hr hts
      subst hr hts
      have hci : s0.chainIndex + j = s.chainIndex := by omega
      rw [hci]
      refine ⟨?_, ?_, h.prior, fun hj0 => h.start (by omega), fun hu hor => ?_, h.nosig, ?_, ?_⟩
      · rw [hs.chain, List.getElem?_set_ne (by omega)]; exact h.cur
      · rw [hs.sschain, List.getElem?_set_ne (by omega)]; exact h.cur'
      · obtain ⟨c, c1, c2⟩ := h.sig hu (hor.imp (by omega) id)
        have he := hs.errModel
        rw [if_pos hu] at he
        obtain ⟨c', r', e1, e2, e3, -⟩ := he
        rw [c1] at e1
        cases e1
        exact ⟨_, e3, by rw [List.getElem?_set_ne (by omega)]; exact c2⟩
      · rw [hfil j (by omega), List.filter_eq_self.2]
        · exact h.factor
        · intro a ha
          have := h.at_ a ha
          simp; omega
      · obtain ⟨t, ts', e1, e2⟩ := propose_first hs.prop
        exact ⟨t, ts', e1, e2.fixed h.value⟩

end Verif
