import Verif.Spec.Iteration
import Verif.Lemmas.MoveRun
import Verif.Lemmas.Alpha
import Verif.Lemmas.SigmaDraws

/-! # All proposals of every iteration of a run -/

set_option linter.unusedSectionVars false

namespace Verif
variable {F σ : Type} [PyFloat F] {N n m : ℕ}

theorem Stages.congr {inside inside' : Vec F n → Prop} {sos sos' : Vec F n → Vec F m → Prop}
    {prior prior' : Vec F n → F} {G : Rng σ F} {theta : Vec F n} {sigma2 : Vec F m}
    {RDR : Slot (List (Mat F n))} {invR : Option (List (Mat F n))}
    (hi : ∀ t, inside t ↔ inside' t) (hs : ∀ t ss, inside t → sos t ss → sos' t ss)
    (hp : ∀ t, prior t = prior' t) :
    ∀ {left k : ℕ} {path : List (ParamSet F n m)} {s : σ} {ts : List (Try F n)} {s' : σ},
      Stages inside sos prior G theta sigma2 RDR invR left k path s ts s' →
      Stages inside' sos' prior' G theta sigma2 RDR invR left k path s ts s'
  | 0, _, _, _, _, _, h => h
  | left + 1, k, path, s, ts, s', h => by
    obtain ⟨l, R, t, ts', h1, h2, h3, h4, h5, h6⟩ := h
    refine ⟨l, R, t, ts', h1, h2, h3, h4, fun hno => ?_, fun hin => ?_⟩
    · obtain ⟨a, b⟩ := h5 fun h => hno ((hi _).1 h)
      exact ⟨a, b.congr hi hs hp⟩
    · obtain ⟨ss, inv, α, c, c', g1, g2, g3, g4, g5⟩ := h6 ((hi _).2 hin)
      rw [hp] at g3 g5
      refine ⟨ss, inv, α, c, c', hs _ _ ((hi _).2 hin) g1, g2, g3, g4, fun hle => ?_⟩
      obtain ⟨e1, e2, e3⟩ := g5 hle
      exact ⟨e1, e2, fun ha => (e3 ha).congr hi hs hp⟩

theorem Iteration.congr {inside inside' : Vec F n → Prop} {sos sos' : Vec F n → Vec F m → Prop}
    {prior prior' : Vec F n → F} {G : Rng σ F} {row : ParamSet F n m} {R : Mat F n}
    {RDR : Slot (List (Mat F n))} {invR : Option (List (Mat F n))} {ntry : ℕ} {s s' : σ}
    {ts : List (Try F n)}
    (hi : ∀ t, inside t ↔ inside' t) (hs : ∀ t ss, inside t → sos t ss → sos' t ss)
    (hp : ∀ t, prior t = prior' t)
    (h : Iteration inside sos prior G row R RDR invR ntry s ts s') :
    Iteration inside' sos' prior' G row R RDR invR ntry s ts s' := by
  obtain ⟨t, ts', h3, h4, h5, h6⟩ := h
  refine ⟨t, ts', h3, h4, fun hno => ?_, fun hin => ?_⟩
  · obtain ⟨a, b⟩ := h5 fun h => hno ((hi _).1 h)
    exact ⟨a, b.congr hi hs hp⟩
  · obtain ⟨ss, g1, g2, g4, g5⟩ := h6 ((hi _).2 hin)
    rw [hp] at g2 g5
    exact ⟨ss, hs _ _ ((hi _).2 hin) g1, g2, g4, fun ha => (g5 ha).congr hi hs hp⟩

/-- the relation between sampled values and sums of squares, with the full vector `fixed` elsewhere -/
def SosOf (P : Problem F N n m) (fixed : Vec F N) (theta : Vec F n) (ss : Vec F m) : Prop :=
  ∃ val, (∀ k, (∀ i, P.parind i ≠ k) → val k = fixed k) ∧
    SosAt P.style1 P.sosFun (writeAt P.parind theta val) ss

/-- within the limits of a problem -/
def InsideOf (P : Problem F N n m) (theta : Vec F n) : Prop := isOutside theta P.lower P.upper = false

theorem strip_path {path path' : List (ParamSet F n m)} {x x' : ParamSet F n m}
    (h : path.map ParamSet.strip = path'.map ParamSet.strip) (hx : x.strip = x'.strip)
    (inv : List (Mat F n)) (c : ℕ) : alphafun (path ++ [x]) inv c = alphafun (path' ++ [x']) inv c := by
  rw [← alphafun_strip, ← alphafun_strip (path' ++ [x'])]
  simp only [List.map_append, List.map_cons, List.map_nil, h, hx]

theorem drLoop_stages {P : Problem F N n m} {G : Rng σ F} {old : ParamSet F n m} {sigma2 : Vec F m}
    {RDR : Slot (List (Mat F n))} {invR : Option (List (Mat F n))} {fixed : Vec F N} :
    ∀ (left k : ℕ) (path path' : List (ParamSet F n m)) (o0 o : DrOut F σ N n m),
    (∀ k, (∀ i, P.parind i ≠ k) → o0.world.value k = fixed k) →
    path.map ParamSet.strip = path'.map ParamSet.strip →
    drLoop P G old sigma2 RDR invR left k path o0 = .ok o →
    ∃ ts, o.tries = o0.tries ++ ts ∧
      Stages (InsideOf P) (SosOf P fixed) P.prior G old.theta sigma2 RDR invR left k path'
        o0.world.rng ts o.world.rng
  | 0, _, _, _, o0, o, _, _, h => by
      rw [drLoop] at h
      cases h
      exact ⟨[], by simp, rfl, rfl⟩
  | left + 1, k, path, path', o0, o, hf, hpath, h => by
      rw [drLoop] at h
      obtain ⟨R, hR, h⟩ := bind_ok.1 h
      obtain ⟨l, hl, hlR⟩ : ∃ l, RDR = .some l ∧ l[k]? = some R := by
        cases hs : RDR with
        | missing => rw [hs] at hR; cases hR
        | pyNone => rw [hs] at hR; cases hR
        | some l => rw [hs] at hR; exact ⟨l, rfl, pyGet_ok.1 hR⟩
      dsimp only at h
      split at h
      · rename_i ho
        obtain ⟨ts, h1, h2⟩ := drLoop_stages left (k + 1)
          (path ++ [setOutsideBounds ⟨(sampleCandidate G old.theta R o0.world).1,
            fun _ => PyFloat.inf, lit 0, sigma2, none⟩])
          (path' ++ [outsideSet (sampleCandidate G old.theta R o0.world).1 sigma2]) _ o
          (fixed := fixed) (by exact hf) (by
            simp only [List.map_append, List.map_cons, List.map_nil, hpath]
            rfl) h
        refine ⟨⟨(sampleCandidate G old.theta R o0.world).1, true, false⟩ :: ts, by rw [h1]; simp, l, R, _, ts,
          hl, hlR, rfl, fun i => rfl, fun _ => ⟨rfl, h2⟩,
          fun hin => ?_⟩
        unfold InsideOf at hin
        dsimp only at hin
        rw [ho] at hin
        cases hin
      · rename_i ho
        simp only [Bool.not_eq_true] at ho
        obtain ⟨e, hss, h⟩ := bind_ok.1 h
        obtain ⟨inv, hinv, h⟩ := bind_ok.1 h
        obtain ⟨ac, hac, h⟩ := bind_ok.1 h
        obtain ⟨oi, hoi, h⟩ := bind_ok.1 h
        obtain ⟨iacce, hia, h⟩ := bind_ok.1 h
        obtain ⟨g1, g2, g3, -⟩ := evaluateSos_ok hss
        have hinv := orRaise_ok.1 hinv
        rw [strip_path hpath rfl] at hac
        have hsos : SosOf P fixed (sampleCandidate G old.theta R o0.world).1 e.1 := ⟨_, hf, g1⟩
        have hval : ∀ k, (∀ i, P.parind i ≠ k) → e.2.value k = fixed k := by
          intro k hk
          rw [g2, writeAt_fixed hk]
          exact hf k hk
        have hrng : e.2.rng = (G.randn n o0.world.rng).2 := g3
        by_cases hle : PyFloat.le (lit 1) ac.1 = true
        · simp only [posteriorRatioTest, hle, if_true] at h
          cases h
          refine ⟨[_], rfl, l, R, _, [], hl, hlR, rfl, fun i => rfl, fun hno => absurd ho hno, fun _ =>
            ⟨e.1, inv, ac.1, _, ac.2, hsos, hinv, hac, fun _ => ⟨rfl, rfl, hrng⟩, fun hf => ?_⟩⟩
          rw [hle] at hf
          cases hf
        · simp only [posteriorRatioTest, hle, Bool.false_eq_true, if_false] at h
          simp only [Bool.not_eq_true] at hle
          split at h
          · rename_i hacc
            cases h
            refine ⟨[_], rfl, l, R, _, [], hl, hlR, rfl, fun i => rfl, fun hno => absurd ho hno, fun _ =>
              ⟨e.1, inv, ac.1, _, ac.2, hsos, hinv, hac, fun h => ?_, fun _ => ⟨?_, fun _ => ⟨rfl, ?_⟩, ?_⟩⟩⟩
            · rw [hle] at h; cases h
            · rw [← hrng]
            · rw [← hrng]
            · intro h; dsimp only at h; rw [hacc] at h; cases h
          · rename_i hacc
            simp only [Bool.not_eq_true] at hacc
            obtain ⟨ts, h1, h2⟩ := drLoop_stages left (k + 1)
              (path ++ [⟨(sampleCandidate G old.theta R o0.world).1, e.1,
                P.prior (sampleCandidate G old.theta R o0.world).1, sigma2, some ac.1⟩])
              (path' ++ [⟨(sampleCandidate G old.theta R o0.world).1, e.1,
                P.prior (sampleCandidate G old.theta R o0.world).1, sigma2, none⟩]) _ o
              (fixed := fixed) (by exact hval) (by
                simp only [List.map_append, List.map_cons, List.map_nil, hpath]
                rfl) h
            dsimp only at h2
            rw [hrng] at h2 hacc
            refine ⟨⟨(sampleCandidate G old.theta R o0.world).1, false,
                PyFloat.lt (G.rand e.2.rng).1 ac.1⟩ :: ts, by rw [h1]; simp, l, R, _, ts, hl, hlR, rfl,
              fun i => rfl, fun hno => absurd ho hno, fun _ =>
              ⟨e.1, inv, ac.1, _, ac.2, hsos, hinv, hac, fun h => ?_, fun _ => ⟨?_, fun h => ?_, fun _ => h2⟩⟩⟩
            · rw [hle] at h; cases h
            · rw [← hrng]
            · dsimp only at h; rw [hrng, hacc] at h; cases h

theorem propose_iteration {E : Env F σ N n m} {s : SimState F σ N n m} {p : Proposal F σ N n m}
    {fixed : Vec F N} (hf : ∀ k, (∀ i, E.problem.parind i ≠ k) → s.world.value k = fixed k)
    (h : propose E s = .ok p) :
    Iteration (InsideOf E.problem) (SosOf E.problem fixed) E.problem.prior E.rng s.oldSet s.cov.R
      s.cov.RDR s.cov.invR E.opts.ntry s.world.rng p.tries p.world.rng := by
  unfold propose at h
  obtain ⟨⟨o, z⟩, h1, h⟩ := bind_ok.1 h
  dsimp only at h
  -- what follows the first stage
  have rest : o.accept = false →
      (∀ k, (∀ i, E.problem.parind i ≠ k) → o.world.value k = fixed k) →
      o.newSet.sigma2 = s.oldSet.sigma2 →
      ∃ ts', p.tries = ⟨o.newSet.theta, o.outbound, o.accept⟩ :: ts' ∧
        ∀ new : ParamSet F n m, new.strip = o.newSet.strip →
        Stages (InsideOf E.problem) (SosOf E.problem fixed) E.problem.prior E.rng s.oldSet.theta
          s.oldSet.sigma2 s.cov.RDR s.cov.invR (E.opts.ntry - 1) 1
          [{ s.oldSet with alpha := none }, new] o.world.rng ts' p.world.rng := by
    intro ha hv hsig
    split at h
    · obtain ⟨⟨o2, dr, ts⟩, h2, h⟩ := bind_ok.1 h
      cases h
      refine ⟨ts, rfl, fun new hnew => ?_⟩
      unfold runDelayedRejection at h2
      obtain ⟨d, hd, h2⟩ := bind_ok.1 h2
      rw [hsig] at hd
      obtain ⟨ts', g1, g2⟩ := drLoop_stages _ _ _ [{ s.oldSet with alpha := none }, new] _ _ hv
        (by simp only [List.map_cons, List.map_nil, hnew]; rfl) hd
      split at h2
      · cases h2
        rw [show d.tries = ts' by simpa using g1]
        exact g2
      · cases h2
    · rename_i hc
      cases h
      refine ⟨[], rfl, fun new hnew => ?_⟩
      have : ¬ 1 < E.opts.ntry := fun h => hc ⟨h, ha⟩
      rw [show E.opts.ntry - 1 = 0 by omega]
      exact ⟨rfl, rfl⟩
  unfold runMetropolisStep at h1
  dsimp only at h1
  split at h1
  · rename_i ho
    cases h1
    obtain ⟨ts', e1, e2⟩ := rest rfl hf rfl
    refine ⟨_, ts', e1, fun j => rfl, fun _ => ⟨rfl, e2 _ rfl⟩, fun hin => ?_⟩
    unfold InsideOf at hin
    dsimp only [setOutsideBounds] at hin
    rw [ho] at hin
    cases hin
  · rename_i ho
    simp only [Bool.not_eq_true] at ho
    obtain ⟨e, he, h1⟩ := bind_ok.1 h1
    obtain ⟨g1, g2, g3, -⟩ := evaluateSos_ok he
    have hrng : e.2.rng = (E.rng.randn n s.world.rng).2 := g3
    have hval : ∀ k, (∀ i, E.problem.parind i ≠ k) → e.2.value k = fixed k := by
      intro k hk
      rw [g2, writeAt_fixed hk]
      exact hf k hk
    cases h1
    cases ha : PyFloat.lt (PyFloat.log (E.rng.rand e.2.rng).1)
        (calcLogPosteriorRatio (logLike e.1 s.oldSet.sigma2) (logLike s.oldSet.ss s.oldSet.sigma2)
          (lit (-1/2) * E.problem.prior (sampleCandidate E.rng s.oldSet.theta s.cov.R s.world).1)
          (lit (-1/2) * s.oldSet.prior)) with
    | true =>
      rw [if_neg (by simp [logPosteriorRatioTest, ha])] at h
      cases h
      refine ⟨_, [], rfl, fun j => rfl, fun hno => absurd ho hno, fun _ => ⟨e.1, ⟨_, hf, g1⟩, ?_, ?_, ?_⟩⟩
      · dsimp only [logPosteriorRatioTest]
        rw [ha, ← hrng, ← ha]
        rfl
      · intro _
        refine ⟨rfl, ?_⟩
        rw [← hrng]
        rfl
      · intro hx
        dsimp only [logPosteriorRatioTest] at hx
        rw [ha] at hx
        cases hx
    | false =>
      obtain ⟨ts', e1, e2⟩ := rest ha hval rfl
      refine ⟨_, ts', e1, fun j => rfl, fun hno => absurd ho hno, fun _ => ⟨e.1, ⟨_, hf, g1⟩, ?_, ?_, ?_⟩⟩
      · dsimp only [logPosteriorRatioTest]
        rw [ha, ← hrng, ← ha]
        rfl
      · intro hx
        dsimp only [logPosteriorRatioTest] at hx
        rw [ha] at hx
        cases hx
      · intro _
        rw [← hrng]
        exact e2 _ rfl

/-- the covariance object after the adaptations `l`, if it was `c0` at first -/
def covAfter (c0 : CovState F n) (l : List (AdaptRecord F n)) : CovState F n :=
  (l.getLast?.map fun a => a.after).getD c0

theorem sigmaFold_draws {G : Rng σ F} {fuel : ℕ} {ss : Vec F m} :
    ∀ (l : List (Fin m)) {M M' : ErrModel F m} {s s' : σ}, l.Nodup →
    l.foldlM (sigmaStep G fuel ss) (M, s) = .ok (M', s') →
    ∃ st : ℕ → σ, st 0 = s ∧ st l.length = s' ∧ ∀ i (j : Fin m), l[i]? = some j → ∃ N g,
      M.N[(j : ℕ)]? = some N ∧
      gammar G fuel (lit (1/2) * (M.N0 j + N)) (lit 2 * (lit 1 / (M.N0 j * M.S20.read M.sigma2 j + ss j)))
        (st i) = .ok (g, st (i + 1)) ∧ M'.sigma2 j = lit 1 / g
  | [], M, M', s, s', _, h => by
    cases h
    exact ⟨fun _ => s, rfl, rfl, by simp⟩
  | jj :: l, M, M', s, s', hl, h => by
    rw [List.foldlM_cons] at h
    obtain ⟨⟨M1, s1⟩, h1, h⟩ := bind_ok.1 h
    have hnot := (List.nodup_cons.1 hl).1
    obtain ⟨a1, a2, a3, a4, -⟩ := sigmaStep_ok h1
    obtain ⟨st, b1, b2, b3⟩ := sigmaFold_draws l (List.nodup_cons.1 hl).2 h
    obtain ⟨-, -, -, b4, -⟩ := sigmaFold_ok (List.nodup_cons.1 hl).2 h
    unfold sigmaStep at h1
    obtain ⟨Nj, c1, h1⟩ := bind_ok.1 h1
    obtain ⟨⟨g, s2⟩, c2, h1⟩ := bind_ok.1 h1
    cases h1
    refine ⟨fun i => if i = 0 then s else st (i - 1), rfl, by simpa using b2, fun i j hij => ?_⟩
    cases i with
    | zero =>
      simp only [List.getElem?_cons_zero, Option.some.injEq] at hij
      subst hij
      refine ⟨Nj, g, pyGet_ok.1 c1, ?_, ?_⟩
      · simp only [if_true, zero_add, one_ne_zero, if_false, Nat.sub_self, b1]
        exact c2
      · rw [b4 _ hnot]; simp
    | succ i =>
      simp only [List.getElem?_cons_succ] at hij
      have hne : j ≠ jj := by
        rintro rfl
        exact hnot (List.mem_of_getElem? hij)
      obtain ⟨N, g', d1, d2, d3⟩ := b3 i j hij
      refine ⟨N, g', d1, ?_, d3⟩
      have e : (M.S20.read M.sigma2 j) = M.S20.read (Function.update M.sigma2 jj (lit 1 / g)) j := by
        cases M.S20 with
        | own v => rfl
        | aliasSigma2 => exact (Function.update_of_ne hne _ _).symm
      rw [e]
      simpa using d2

theorem updateErrorVariance_draws {G : Rng σ F} {fuel : ℕ} {ss : Vec F m} {M M' : ErrModel F m}
    {s s' : σ} (h : updateErrorVariance G fuel ss M s = .ok (M', s')) :
    VarianceDraws G fuel M.N0 (M.S20.read M.sigma2) ss M.N s M'.sigma2 s' := by
  obtain ⟨st, h1, h2, h3⟩ := sigmaFold_draws (List.finRange m) (List.nodup_finRange m) h
  refine ⟨st, h1, by simpa using h2, fun j => h3 j j ?_⟩
  rw [List.getElem?_eq_getElem (by simp)]
  simp

/-- Invariant: the proposals of every finished iteration. -/
structure StageInv (E : Env F σ N n m) (s0 : SimState F σ N n m) (i : ℕ) (s : SimState F σ N n m) :
    Prop where
  len : s.moveLog.length + 1 = i
  tlen : s.trace.length + 1 = i
  value : ∀ k, (∀ i, E.problem.parind i ≠ k) → s.world.value k = s0.world.value k
  at_ : ∀ a ∈ s.adaptLog, a.at_ < i
  cov : s.cov = covAfter s0.cov s.adaptLog
  moves : ∀ j r ts, s.moveLog[j]? = some r → s.trace[j]? = some ts →
    Iteration (InsideOf E.problem) (SosOf E.problem s0.world.value) E.problem.prior E.rng r.before r.R
      r.RDR r.invR E.opts.ntry r.rng ts r.rngAfter ∧
    r.RDR = (covAfter s0.cov (s.adaptLog.filter fun a => decide (a.at_ ≤ j))).RDR ∧
    r.invR = (covAfter s0.cov (s.adaptLog.filter fun a => decide (a.at_ ≤ j))).invR

theorem StageInv.step {E : Env F σ N n m} {s0 s s' : SimState F σ N n m} {i : ℕ}
    {p : Proposal F σ N n m} (h : StageInv E s0 i s) (hs : StepSpec E i s s' p) :
    StageInv E s0 (i + 1) s' := by
  have hlen := h.len
  have htlen := h.tlen
  have hp := propose_ok hs.prop
  refine ⟨by rw [hs.moveLog]; simp; omega, by rw [hs.trace]; simp; omega, ?_, ?_, ?_, ?_⟩
  · intro k hk
    rw [hs.value]
    exact (hp.calls.value k hk).trans (h.value k hk)
  · intro a ha
    rw [hs.adaptLog] at ha
    rcases List.mem_append.1 ha with ha | ha
    · have := h.at_ a ha; omega
    · split at ha
      · rw [List.mem_singleton.1 ha]; exact Nat.lt_succ_self i
      · cases ha
  · have hc := hs.cov
    rw [hs.adaptLog]
    split at hc
    · rename_i had
      rw [if_pos had]
      simp [covAfter]
    · rename_i had
      rw [if_neg had, List.append_nil, hc, h.cov]
  · intro j r ts hr hts
    have hfil : ∀ j', j' < i → s'.adaptLog.filter (fun a => decide (a.at_ ≤ j')) =
        s.adaptLog.filter (fun a => decide (a.at_ ≤ j')) := by
      intro j' hj'
      rw [hs.adaptLog, List.filter_append]
      split
      · simp; omega
      · simp
    rw [hs.moveLog] at hr
    rw [hs.trace] at hts
    by_cases hj : j + 1 < i
    · rw [List.getElem?_append_left (by omega)] at hr hts
      obtain ⟨g1, g2, g3⟩ := h.moves j r ts hr hts
      rw [hfil j (by omega)]
      exact ⟨g1, g2, g3⟩
    · have hj' : j + 1 = i := by
        have := (List.getElem?_eq_some_iff.1 hr).1
        simp at this
        omega
      rw [List.getElem?_append_right (by omega), show j - s.moveLog.length = 0 by omega] at hr
      rw [List.getElem?_append_right (by omega), show j - s.trace.length = 0 by omega] at hts
      simp only [List.getElem?_cons_zero, Option.some.injEq] at hr hts
      subst hr hts
      have hall : s.adaptLog.filter (fun a => decide (a.at_ ≤ j)) = s.adaptLog := by
        rw [List.filter_eq_self]
        intro a ha
        have := h.at_ a ha
        simp; omega
      rw [hfil j (by omega), hall, ← h.cov]
      exact ⟨propose_iteration h.value hs.prop, rfl, rfl⟩

/-- Invariant: how the state of the random generator passes through the run. -/
structure RngInv (E : Env F σ N n m) (s0 : SimState F σ N n m) (i : ℕ) (s : SimState F σ N n m) :
    Prop where
  idx : s.chainIndex + 1 = s0.chainIndex + i
  len : s.moveLog.length + 1 = i
  first : s.moveLog = [] → s.world.rng = s0.world.rng
  first' : ∀ r, s.moveLog[0]? = some r → r.rng = s0.world.rng
  N0 : s.errModel.N0 = s0.errModel.N0
  N : s.errModel.N = s0.errModel.N
  S20 : s.errModel.S20 = s0.errModel.S20
  sig : E.opts.updatesigma = true → s.errModel.sigma2 = s.oldSet.sigma2
  next : ∀ j r, s.moveLog[j]? = some r → ∃ s', (∀ r', s.moveLog[j + 1]? = some r' → r'.rng = s') ∧
    (j + 1 = s.moveLog.length → s.world.rng = s') ∧
    (E.opts.updatesigma = true → ∃ c ss x, s.s2chain = some c ∧
      s.sschain[s0.chainIndex + j + 1]? = some ss ∧ c[s0.chainIndex + j + 1]? = some x ∧
      VarianceDraws E.rng E.fuel s0.errModel.N0 (s0.errModel.S20.read r.before.sigma2) ss
        s0.errModel.N r.rngAfter x s') ∧
    (E.opts.updatesigma = false → s' = r.rngAfter)

theorem RngInv.step {E : Env F σ N n m} {s0 s s' : SimState F σ N n m} {i : ℕ}
    {p : Proposal F σ N n m} (h : RngInv E s0 i s) (hs : StepSpec E i s s' p) :
    RngInv E s0 (i + 1) s' := by
  have hidx := h.idx
  have hlen := h.len
  have he := hs.errModel
  have hM : s'.errModel.N0 = s.errModel.N0 ∧ s'.errModel.N = s.errModel.N ∧
      s'.errModel.S20 = s.errModel.S20 := by
    split at he
    · obtain ⟨c, r, -, -, -, e4, -⟩ := he
      obtain ⟨a, b, c, -⟩ := updateErrorVariance_ok e4
      exact ⟨a, b, c⟩
    · rw [he.1]; exact ⟨rfl, rfl, rfl⟩
  refine ⟨by rw [hs.idx]; omega, by rw [hs.moveLog]; simp; omega, ?_, ?_, hM.1.trans h.N0,
    hM.2.1.trans h.N, hM.2.2.trans h.S20, ?_, ?_⟩
  · intro h0
    rw [hs.moveLog] at h0
    simp at h0
  · intro r hr
    rw [hs.moveLog] at hr
    cases hm : s.moveLog with
    | nil =>
      rw [hm] at hr
      simp only [List.nil_append, List.getElem?_cons_zero, Option.some.injEq] at hr
      rw [← hr]
      exact h.first hm
    | cons a l =>
      rw [hm] at hr
      simp only [List.cons_append, List.getElem?_cons_zero, Option.some.injEq] at hr
      exact h.first' r (by rw [hm, ← hr]; rfl)
  · intro hu
    have := hs.oldSig
    rw [if_pos hu] at this
    exact this.symm
  · intro j r hr
    rw [hs.moveLog] at hr ⊢
    by_cases hj : j + 1 < i
    · rw [List.getElem?_append_left (by omega)] at hr
      obtain ⟨st, g1, g2, g3, g4⟩ := h.next j r hr
      refine ⟨st, fun r' hr' => ?_, fun hl => ?_, fun hu => ?_, g4⟩
      · by_cases hjl : j + 1 < s.moveLog.length
        · rw [List.getElem?_append_left hjl] at hr'
          exact g1 r' hr'
        · rw [List.getElem?_append_right (by omega), show j + 1 - s.moveLog.length = 0 by omega] at hr'
          simp only [List.getElem?_cons_zero, Option.some.injEq] at hr'
          rw [← hr']
          exact g2 (by omega)
      · simp at hl; omega
      · obtain ⟨c, ss, x, c1, c2, c3, c4⟩ := g3 hu
        rw [if_pos hu] at he
        obtain ⟨c', r', e1, e2, e3, -⟩ := he
        rw [c1] at e1
        cases e1
        refine ⟨_, ss, x, e3, ?_, ?_, c4⟩
        · rw [hs.sschain, List.getElem?_set_ne (by omega)]; exact c2
        · rw [List.getElem?_set_ne (by omega)]; exact c3
    · have hj' : j + 1 = i := by
        have := (List.getElem?_eq_some_iff.1 hr).1
        simp at this
        omega
      rw [List.getElem?_append_right (by omega), show j - s.moveLog.length = 0 by omega] at hr
      simp only [List.getElem?_cons_zero, Option.some.injEq] at hr
      subst hr
      refine ⟨s'.world.rng, fun r' hr' => ?_, fun _ => rfl, fun hu => ?_, fun hu => ?_⟩
      · have := (List.getElem?_eq_some_iff.1 hr').1
        simp at this
        omega
      · rw [if_pos hu] at he
        obtain ⟨c, r, e1, e2, e3, e4, e5⟩ := he
        have hd := updateErrorVariance_draws e4
        rw [h.N0, h.N, h.S20, h.sig hu, ← e5] at hd
        have hci : s0.chainIndex + j + 1 = s.chainIndex + 1 := by omega
        refine ⟨_, _, _, e3, ?_, ?_, hd⟩
        · rw [hs.sschain, hci, List.getElem?_set_self hs.lt']
        · rw [hci, List.getElem?_set_self e2]
      · rw [if_neg (by simp [hu])] at he
        exact he.2.2

end Verif
