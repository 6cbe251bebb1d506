import Verif.Props.Continuation
import Verif.Props.Adaptation
import Verif.Props.Factors

/-! # C69: adaptation in a continued run -/

set_option linter.unusedSectionVars false

namespace Verif
open XR
variable {σ : Type} {n : ℕ}

/-- The rows that enter the moments when adaptations take place in iterations `ts`, the adaptation
before them in iteration `a`: each adaptation in iteration `t` adds the rows from `a` up to `c + t`,
where `c` is the position of the last row of the earlier runs. -/
def usedRows {α : Type} (c : ℕ) (rows : List α) : ℕ → List ℕ → List α
  | _, [] => []
  | a, t :: ts => (rows.take (c + t)).drop a ++ usedRows c rows t ts

theorem usedRows_append {α : Type} (c : ℕ) (rows : List α) (t : ℕ) : ∀ (ts : List ℕ) (a : ℕ),
    usedRows c rows a (ts ++ [t]) =
      usedRows c rows a ts ++ (rows.take (c + t)).drop ((a :: ts).getLast (by simp))
  | [], a => by simp [usedRows]
  | u :: ts, a => by
    rw [List.cons_append, usedRows, usedRows_append c rows t ts u, usedRows, List.append_assoc,
      List.getLast_cons (List.cons_ne_nil u ts)]

/-- the iterations of the adaptations after the burn-in -/
def pastBurnin (b : ℤ) (l : List (AdaptRecord XR n)) : List ℕ :=
  (l.map (·.at_)).filter fun t => b ≤ t

theorem pastBurnin_append (b : ℤ) (l l' : List (AdaptRecord XR n)) :
    pastBurnin b (l ++ l') = pastBurnin b l ++ pastBurnin b l' := by
  simp [pastBurnin]

/-- invariant of the main loop for C69 -/
structure UsedInv {N m : ℕ} (c : ℕ) (b : ℤ) (rows : List (Fin n → ℝ)) (i : ℕ)
    (s : SimState XR σ N n m) : Prop where
  idx : s.chainIndex + 1 = c + i
  last : s.cov.lastIndex = (0 :: pastBurnin b s.adaptLog).getLast (by simp)
  lastLt : s.cov.lastIndex < i
  chain : s.chain.take (c + i) = (rows.take (c + i)).map finVec →
    (if pastBurnin b s.adaptLog = [] then s.cov.covchain = none
      else HoldsMoments s.cov (usedRows c rows 0 (pastBurnin b s.adaptLog))) ∧
    ∀ pre r post, s.adaptLog = pre ++ r :: post → b ≤ r.at_ →
      HoldsMoments r.after (usedRows c rows 0 (pastBurnin b (pre ++ [r])))
  ltI : ∀ r ∈ s.adaptLog, 1 ≤ r.at_ ∧ r.at_ < i
  sorted : (s.adaptLog.map (·.at_)).Pairwise (· < ·)

theorem UsedInv.step {N m : ℕ} (hn : 0 < n) {E : Env XR σ N n m} {c i : ℕ}
    {rows : List (Fin n → ℝ)}
    {s s' : SimState XR σ N n m} {p : Proposal XR σ N n m} (hi : 1 ≤ i)
    (h : UsedInv c E.opts.burnintime rows i s) (hp : StepSpec E i s s' p) :
    UsedInv c E.opts.burnintime rows (i + 1) s' := by
  obtain ⟨h1, hlast, hlt, h3, h4, h5⟩ := h
  have hpre : s'.chain.take (c + i) = s.chain.take (c + i) := by
    rw [hp.chain, h1, List.take_set_of_le le_rfl]
  have hback : s'.chain.take (c + (i + 1)) = (rows.take (c + (i + 1))).map finVec →
      s.chain.take (c + i) = (rows.take (c + i)).map finVec := by
    intro hr
    have := congrArg (List.take (c + i)) hr
    rw [List.take_take, min_eq_left (by omega), hpre, ← List.map_take, List.take_take,
      min_eq_left (by omega)] at this
    exact this
  have hcov := hp.cov
  by_cases ha : adaptNow E s
  · rw [if_pos ha] at hcov
    have hlog := hp.adaptLog
    rw [if_pos ha] at hlog
    have hlog' : ∀ r ∈ s'.adaptLog, 1 ≤ r.at_ ∧ r.at_ < i + 1 := by
      intro r hr
      rw [hlog, List.mem_append, List.mem_singleton] at hr
      rcases hr with hr | hr
      · have := h4 r hr; omega
      · rw [hr]; dsimp only; omega
    have hsort : (s'.adaptLog.map (·.at_)).Pairwise (· < ·) := by
      rw [hlog, List.map_append, List.pairwise_append]
      refine ⟨h5, by simp, fun a ha b hb => ?_⟩
      obtain ⟨r, hr, rfl⟩ := List.mem_map.1 ha
      simp only [List.map_cons, List.map_nil, List.mem_singleton] at hb
      rw [hb]; exact (h4 r hr).2
    have hsplit : ∀ {pre : List (AdaptRecord XR n)} {r post} {q : AdaptRecord XR n},
        s.adaptLog ++ [q] = pre ++ r :: post →
        (∃ post', s.adaptLog = pre ++ r :: post') ∨ (pre = s.adaptLog ∧ r = q) := by
      intro pre r post q he
      rcases List.eq_nil_or_concat post with rfl | ⟨post', x, rfl⟩
      · have := List.append_inj' he rfl
        exact .inr ⟨this.1.symm, (List.cons.inj this.2).1.symm⟩
      · left
        rw [List.concat_eq_append, ← List.cons_append, ← List.append_assoc] at he
        have := List.append_inj' he rfl
        exact ⟨post', this.1⟩
    rcases runAdaptation_ok hcov with ⟨hb, hc⟩ | ⟨hb, hc⟩
    · have hpb : pastBurnin E.opts.burnintime s'.adaptLog = pastBurnin E.opts.burnintime s.adaptLog := by
        rw [hlog, pastBurnin_append]
        simp [pastBurnin, hb]
      refine ⟨by rw [hp.idx]; omega, ?_, by rw [hc]; dsimp only; omega, fun hr => ?_, hlog', hsort⟩
      · rw [hc]; dsimp only; rw [hlast]; congr 1; rw [hpb]
      · obtain ⟨q1, q2⟩ := h3 (hback hr)
        refine ⟨?_, fun pre r post he hbr => ?_⟩
        · rw [hpb, hc]; exact q1
        · rw [hlog] at he
          rcases hsplit he with ⟨post', he⟩ | ⟨_, rfl⟩
          · exact q2 pre r post' he hbr
          · exact absurd hbr (not_le.2 hb)
    · have hpb : pastBurnin E.opts.burnintime s'.adaptLog =
          pastBurnin E.opts.burnintime s.adaptLog ++ [i] := by
        rw [hlog, pastBurnin_append]
        simp [pastBurnin, hb]
      refine ⟨by rw [hp.idx]; omega, ?_, by rw [hc.lastIndex]; omega, fun hr => ?_, hlog', hsort⟩
      · rw [hc.lastIndex]
        have : ∀ l : List ℕ, l = pastBurnin E.opts.burnintime s.adaptLog ++ [i] →
            i = (0 :: l).getLast (by simp) := by
          rintro l rfl
          simp
        exact this _ hpb
      · obtain ⟨q1, q2⟩ := h3 (hback hr)
        have hlen : c + i < s'.chain.length := by rw [hp.chain, List.length_set, ← h1]; exact hp.lt
        have hr' : s'.chain.take (c + i) = (rows.take (c + i)).map finVec := by
          rw [hpre]; exact hback hr
        have hrl : c + i ≤ rows.length := by
          have := congrArg List.length hr'
          simp only [List.length_take, List.length_map] at this
          omega
        have hu := hc.update
        rw [pySlice, h1, hr', ← List.map_drop] at hu
        have hm := update_moments hn (r1 := usedRows c rows 0 (pastBurnin E.opts.burnintime s.adaptLog))
          (c' := s'.cov)
          (by
            intro h0
            have := congrArg List.length h0
            simp only [List.length_drop, List.length_take, List.length_nil] at this
            omega)
          (by
            by_cases hnil : pastBurnin E.opts.burnintime s.adaptLog = []
            · rw [if_pos hnil] at q1
              rw [hnil, usedRows, if_pos rfl]; exact q1
            · rw [if_neg hnil] at q1
              have hne : usedRows c rows 0 (pastBurnin E.opts.burnintime s.adaptLog) ≠ [] := by
                obtain ⟨a, l, hal⟩ := List.exists_cons_of_ne_nil hnil
                have ha' : 1 ≤ a ∧ a < i := by
                  have : a ∈ pastBurnin E.opts.burnintime s.adaptLog := by rw [hal]; simp
                  obtain ⟨r, hr, rfl⟩ := List.mem_map.1 (List.mem_filter.1 this).1
                  exact h4 r hr
                intro h0
                rw [hal, usedRows] at h0
                have h0 := (List.append_eq_nil_iff.1 h0).1
                have := congrArg List.length h0
                simp only [List.drop_zero, List.length_take, List.length_nil] at this
                omega
              rw [if_neg hne]; exact q1)
          hu
        have he : usedRows c rows 0 (pastBurnin E.opts.burnintime s.adaptLog) ++
            (rows.take (c + i)).drop s.cov.lastIndex =
            usedRows c rows 0 (pastBurnin E.opts.burnintime s'.adaptLog) := by
          rw [hpb, usedRows_append, hlast]
        rw [he] at hm
        refine ⟨?_, fun pre r post he hbr => ?_⟩
        · rw [if_neg (by rw [hpb]; simp)]; exact hm
        · have he' := he
          rw [hlog] at he
          rcases hsplit he with ⟨post', he⟩ | ⟨e1, e2⟩
          · exact q2 pre r post' he hbr
          · rw [e1, e2, ← hlog]; exact hm
  · rw [if_neg ha] at hcov
    have hlog := hp.adaptLog
    rw [if_neg ha, List.append_nil] at hlog
    refine ⟨by rw [hp.idx]; omega, ?_, by rw [hcov]; omega, fun hr => ?_, ?_, ?_⟩
    · rw [hcov, hlast]; congr 1; rw [hlog]
    · rw [hlog, hcov]; exact h3 (hback hr)
    · rw [hlog]; intro r hr; have := h4 r hr; omega
    · rw [hlog]; exact h5

/-- **C69**, what is computed: in any run without prior weight an adaptation past the burn-in leaves
the moments of the rows `usedRows`, with `c` the position of the last row of the earlier runs. -/
theorem used_moments {N m : ℕ} {flags : Fin N → Bool} (hn : 0 < nS flags)
    {U : UserFuns XR N (nS flags) m} {o : Obj XR flags m} {G : Rng σ XR} {L : Lapack XR} {fuel : ℕ}
    {rng : σ} {out : RunOut XR σ flags m} (hrd : Ready o)
    (h : runSimulation U G L fuel o rng true = .ok out) (hq : o.opts.initqcovn = none)
    {rows : List (Fin (nS flags) → ℝ)} (hrows : out.results.chain = rows.map finVec) :
    rows.length + 1 = o.chains.chain.length + o.opts.nsimu ∧
    (out.final.adaptLog.map (·.at_)).Pairwise (· < ·) ∧
    (∀ r ∈ out.final.adaptLog, 1 ≤ r.at_ ∧ (r.at_ : ℤ) < o.opts.nsimu) ∧
    ∀ pre r post, out.final.adaptLog = pre ++ r :: post → o.opts.burnintime ≤ r.at_ →
      HoldsMoments r.after
        (usedRows o.chainIndex rows 0 (pastBurnin o.opts.burnintime (pre ++ [r]))) := by
  obtain ⟨o1, I, s0, hst, rfl, hc0, h1, h2, hch, hinit⟩ := run_cov h
  obtain ⟨_, hpos, hci, hchain, _⟩ := setup_continue h1
  obtain ⟨_, _, c1, _, _, c4, _⟩ := initCovState_ok hinit
  have hq' : out.init.opts.initqcovn = none := by
    rw [hst.init.opts, hst.opts]; exact hq
  have hbt : out.init.opts.burnintime = o.opts.burnintime := by rw [hst.init.opts, hst.opts]; rfl
  have hns : out.init.opts.nsimu = o.opts.nsimu := by rw [hst.init.opts, hst.opts]; rfl
  obtain ⟨_, s1, ⟨hI, hlen⟩, hfin⟩ := executeSimulator_inv
    (P := fun i s => UsedInv o.chainIndex out.init.opts.burnintime rows i s ∧
      s.chain.length + 1 = o.chains.chain.length + out.init.opts.nsimu.toNat)
    ⟨⟨by simp [loopStart, hci], by simp [loopStart, hc0, c4, hst.adaptLog, pastBurnin],
      by simp [loopStart, hc0, c4], fun _ => by
      simp [loopStart, hc0, c1, hq', hst.adaptLog, pastBurnin], by simp [loopStart, hst.adaptLog],
      by simp [loopStart, hst.adaptLog]⟩, by simp [loopStart, hchain, zeroRows]; omega⟩
    (fun i a b p hi _ hP hp => ⟨hP.1.step hn hi hp, by rw [hp.chain, List.length_set, hP.2]⟩) h2
  rw [hfin] at hch ⊢
  dsimp only at hch ⊢
  have hl : rows.length = s1.chain.length := by rw [← hch, hrows, List.length_map]
  refine ⟨by omega, hI.sorted, fun r hr => ?_, ?_⟩
  · have := hI.ltI r hr
    have h5 : r.at_ < out.init.opts.nsimu.toNat := this.2
    omega
  · have := (hI.chain (by rw [List.map_take, ← hrows, hch])).2
    rwa [hbt] at this

theorem usedRows_length {α : Type} {c : ℕ} {rows : List α} : ∀ {ts : List ℕ} {a : ℕ},
    (a :: ts).Pairwise (· < ·) → (∀ t ∈ ts, c + t ≤ rows.length) → ts ≠ [] →
    (usedRows c rows a ts).length + a = ts.length * c + (a :: ts).getLast (by simp)
  | [t], a, hs, hl, _ => by
    have := hl t (by simp)
    have : a < t := by simpa using hs
    simp [usedRows]; omega
  | t :: u :: ts, a, hs, hl, _ => by
    have := usedRows_length (c := c) (rows := rows) (ts := u :: ts) (a := t)
      (List.pairwise_cons.1 hs).2 (fun x hx => hl x (by simp [hx])) (by simp)
    have h1 := hl t (by simp)
    have h2 : a < t := (List.pairwise_cons.1 hs).1 t (by simp)
    rw [usedRows, List.length_append, List.length_drop, List.length_take, min_eq_left h1,
      List.getLast_cons (by simp)]
    rw [List.length_cons, add_mul, one_mul]
    omega

/-- **C69**, first adaptation: in a continued run without prior weight the first adaptation past the
burn-in leaves the sample mean, the unbiased sample covariance and the number of all rows recorded
before, those of the earlier runs included. -/
theorem C69_first_adaptation_partial {N m : ℕ} {flags : Fin N → Bool} (hn : 0 < nS flags)
    {U : UserFuns XR N (nS flags) m} {o0 o : Obj XR flags m} {G : Rng σ XR} {L : Lapack XR} {fuel : ℕ}
    {rng : σ} {out : RunOut XR σ flags m} (h0 : o0.results = none) (hre : Reachable U o0 o)
    (h : runSimulation U G L fuel o rng true = .ok out) (hq : o.opts.initqcovn = none)
    {rows : List (Fin (nS flags) → ℝ)} (hrows : out.results.chain = rows.map finVec)
    {r : AdaptRecord XR (nS flags)} (hr : r ∈ out.final.adaptLog)
    (hb : o.opts.burnintime ≤ r.at_)
    (hfirst : ∀ q ∈ out.final.adaptLog, o.opts.burnintime ≤ q.at_ → r.at_ ≤ q.at_) :
    ∃ k, k + 1 = o.chains.chain.length + r.at_ ∧ k < rows.length ∧
      r.after.meanchain = some (finVec (sampleMean (rows.take k))) ∧
      r.after.covchain = some (finMat (sampleCov (rows.take k))) ∧
      r.after.wsum = some (.fin k) := by
  obtain ⟨_, _, _, _, _, _, h1, _⟩ := run_cov h
  obtain ⟨_, _, _, _, _, _, _, _, ⟨res, hres, _⟩, _⟩ := setup_continue h1
  have hrd := reachable_ready h0 hre (by rw [hres]; rfl)
  obtain ⟨g1, g2, g3, g4⟩ := used_moments hn hrd h hq hrows
  obtain ⟨pre, post, he⟩ := List.append_of_mem hr
  have hm := g4 pre r post he hb
  have hpre : pastBurnin o.opts.burnintime (pre ++ [r]) = [r.at_] := by
    rw [pastBurnin_append]
    have e1 : pastBurnin o.opts.burnintime pre = [] := by
      rw [pastBurnin, List.filter_eq_nil_iff]
      intro t ht hbt
      obtain ⟨q, hq, rfl⟩ := List.mem_map.1 ht
      have := hfirst q (by rw [he]; simp [hq]) (by simpa using hbt)
      rw [he, List.map_append, List.pairwise_append] at g2
      have := g2.2.2 q.at_ (List.mem_map.2 ⟨q, hq, rfl⟩) r.at_ (by simp)
      omega
    rw [e1]; simp [pastBurnin, hb]
  rw [hpre] at hm
  have hb' := g3 r hr
  have := hrd.chain
  simp only [usedRows, List.append_nil, List.drop_zero] at hm
  obtain ⟨e1, e2, e3⟩ := hm
  rw [List.length_take, min_eq_left (by omega)] at e3
  exact ⟨o.chainIndex + r.at_, by omega, by omega, e1, e2, e3⟩

/-- **C69**, later adaptations: if the earlier runs left more than one row, every later adaptation past
the burn-in of the continued run counts more rows than there are - the rows of the earlier runs are
counted again.  With `j` adaptations past the burn-in before it, an adaptation in iteration `i`
weighs its moments with `(j + 1) (k - 1) + i` instead of `k - 1 + i` rows, `k` the number of rows of
the earlier runs. -/
theorem C69_later_adaptations_refuted {N m : ℕ} {flags : Fin N → Bool} (hn : 0 < nS flags)
    {U : UserFuns XR N (nS flags) m} {o0 o : Obj XR flags m} {G : Rng σ XR} {L : Lapack XR} {fuel : ℕ}
    {rng : σ} {out : RunOut XR σ flags m} (h0 : o0.results = none) (hre : Reachable U o0 o)
    (h : runSimulation U G L fuel o rng true = .ok out) (hq : o.opts.initqcovn = none)
    {rows : List (Fin (nS flags) → ℝ)} (hrows : out.results.chain = rows.map finVec)
    {pre post : List (AdaptRecord XR (nS flags))} {r : AdaptRecord XR (nS flags)}
    (hlog : out.final.adaptLog = pre ++ r :: post) (hb : o.opts.burnintime ≤ r.at_) :
    ∃ w : ℕ, r.after.wsum = some (.fin w) ∧
      w = ((pre.filter fun q => o.opts.burnintime ≤ q.at_).length + 1) * (o.chains.chain.length - 1)
        + r.at_ ∧
      (1 < o.chains.chain.length → (∃ q ∈ pre, o.opts.burnintime ≤ q.at_) →
        o.chains.chain.length - 1 + r.at_ < w) := by
  obtain ⟨_, _, _, _, _, _, h1, _⟩ := run_cov h
  obtain ⟨_, _, _, _, _, _, _, _, ⟨res, hres, _⟩, _⟩ := setup_continue h1
  have hrd := reachable_ready h0 hre (by rw [hres]; rfl)
  obtain ⟨g1, g2, g3, g4⟩ := used_moments hn hrd h hq hrows
  obtain ⟨_, _, e3⟩ := g4 pre r post hlog hb
  have hpb : pastBurnin o.opts.burnintime (pre ++ [r]) =
      pastBurnin o.opts.burnintime pre ++ [r.at_] := by
    rw [pastBurnin_append]; simp [pastBurnin, hb]
  have hplen : (pastBurnin o.opts.burnintime pre).length =
      (pre.filter fun q => o.opts.burnintime ≤ q.at_).length := by
    rw [pastBurnin, List.filter_map, List.length_map]; rfl
  have hall : ∀ t ∈ pastBurnin o.opts.burnintime (pre ++ [r]), 1 ≤ t ∧ (t : ℤ) < o.opts.nsimu := by
    intro t ht
    obtain ⟨q, hq, rfl⟩ := List.mem_map.1 (List.mem_filter.1 ht).1
    exact g3 q (by rw [hlog]; simp at hq ⊢; tauto)
  have hsort : (0 :: pastBurnin o.opts.burnintime (pre ++ [r])).Pairwise (· < ·) := by
    rw [List.pairwise_cons]
    refine ⟨fun t ht => (hall t ht).1, ?_⟩
    refine List.Pairwise.sublist ?_ g2
    rw [hlog]
    refine List.filter_sublist.trans (List.Sublist.map _ ?_)
    exact (List.Sublist.refl pre).append (by simp)
  have hk := hrd.chain
  have hl := usedRows_length (c := o.chainIndex) (rows := rows) hsort (fun t ht => by
    have := (hall t ht).2; omega) (by rw [hpb]; simp)
  have hlast : ∀ l : List ℕ, l = pastBurnin o.opts.burnintime pre ++ [r.at_] →
      (0 :: l).getLast (by simp) = r.at_ := by
    rintro l rfl; simp
  rw [hlast _ hpb] at hl
  have hlen : (pastBurnin o.opts.burnintime (pre ++ [r])).length =
      (pre.filter fun q => o.opts.burnintime ≤ q.at_).length + 1 := by
    rw [hpb, List.length_append, hplen]; rfl
  rw [hlen, add_zero] at hl
  refine ⟨_, e3, ?_, fun h1 ⟨q, hq1, hq2⟩ => ?_⟩
  · rw [hl, hk, Nat.add_sub_cancel]
  · have : 0 < (pre.filter fun q => o.opts.burnintime ≤ q.at_).length :=
      List.length_pos_iff.2 (List.ne_nil_of_mem (List.mem_filter.2 ⟨hq1, by simpa using hq2⟩))
    rw [hl, hk, Nat.add_sub_cancel]
    have : 0 < o.chainIndex := by omega
    nlinarith

/-- the hypotheses of `C69_first_adaptation_partial` and `C69_later_adaptations_refuted` can be met: a
continued run adapting in the iterations 2 and 4 -/
example : ∃ (o : Obj XR XRun.flags 1) (out : RunOut XR Unit XRun.flags 1)
    (rows : List (Fin (nS XRun.flags) → ℝ)) (r r' : AdaptRecord XR (nS XRun.flags)),
    Reachable XRun.user (XRun.obj XRun.contArgs) o ∧
    runSimulation XRun.user XRun.rng exactLapack 1 o () true = .ok out ∧ o.opts.initqcovn = none ∧
    out.results.chain = rows.map finVec ∧ out.final.adaptLog = [r, r'] ∧
    o.opts.burnintime ≤ r.at_ ∧ r.at_ = 2 ∧ r'.at_ = 4 ∧ 1 < o.chains.chain.length := by
  obtain ⟨out, out', h, h', hrows⟩ := XRun.cont_runs
  have hr : ∃ rows : List (Fin (nS XRun.flags) → ℝ), out'.results.chain = rows.map finVec := by
    generalize out'.results.chain = l at hrows
    induction l with
    | nil => exact ⟨[], rfl⟩
    | cons a l ih =>
      obtain ⟨x, rfl⟩ := hrows a (by simp)
      obtain ⟨rows, rfl⟩ := ih fun r hr => hrows r (by simp [hr])
      exact ⟨x :: rows, rfl⟩
  obtain ⟨rows, hr⟩ := hr
  obtain ⟨hpw, hat⟩ := (C14_adaptation_schedule_partial h').1 (show (0 : ℤ) < 2 by decide)
  have hlist : out'.final.adaptedAt = [2, 4] := by
    refine List.Perm.eq_of_pairwise (le := (· < ·)) (fun a b _ _ h1 h2 => by omega) hpw (by decide) ?_
    refine (List.perm_ext_iff_of_nodup (hpw.imp fun h => Nat.ne_of_lt h) (by decide)).2 fun a => ?_
    rw [hat]
    change (1 ≤ a ∧ (a : ℤ) < 5 ∧ (2 : ℤ) ∣ a) ↔ _
    simp only [List.mem_cons, List.not_mem_nil, or_false]
    omega
  rw [← adaptLog_at h'] at hlist
  obtain ⟨r, r', hl⟩ : ∃ r r', out'.final.adaptLog = [r, r'] := by
    have := congrArg List.length hlist
    rw [List.length_map] at this
    exact List.length_eq_two.1 this
  rw [hl] at hlist
  simp only [List.map_cons, List.map_nil, List.cons.injEq, and_true] at hlist
  obtain ⟨i1, j1, j2, _⟩ := run_objInv (o0 := XRun.obj XRun.contArgs)
    (reachable_objInv rfl .start) h
  have hlen := i1.len (by rw [j1]; rfl)
  obtain ⟨o1, I, s0, h1, h2, h3, _, h5⟩ := runSimulation_ok h
  obtain ⟨hst, _, hci, hch, _⟩ := setup_fresh h1
  have hn : I.opts.nsimu = 5 := by rw [hst.init.opts, hst.opts]; rfl
  obtain ⟨_, g2, _⟩ := run_good (G := XRun.rng) (L := exactLapack) (fuel := 1) rfl hst h2
  refine ⟨_, out', rows, r, r', .options _ _ (.run _ _ _ _ _ _ .start h), h', rfl, hr, hl,
    show (0 : ℤ) ≤ _ by positivity, hlist.1, hlist.2, ?_⟩
  change 1 < out.obj.chains.chain.length
  rw [hlen, h5]
  dsimp only
  rw [hn, hci] at g2
  have : (5 : ℤ).toNat = 5 := rfl
  omega

end Verif
