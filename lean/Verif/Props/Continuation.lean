import Verif.Lemmas.Continue
import Verif.Props.Progress
import Verif.Props.Continue
import Verif.Props.Factors
import Verif.Lemmas.Sigma

/-! # C70: a completed run can be continued -/

set_option linter.unusedSectionVars false

namespace Verif
variable {F σ : Type} [PyFloat F] {N m : ℕ} {flags : Fin N → Bool}

/-- the observation counts with which a run works if the user gave none -/
def dataCounts (n : List ℕ) : List F := n.map fun k : ℕ => ofInt k

/-- settings as a run leaves them: one entry per element of the sum-of-squares function, the
observation counts taken from the data -/
structure Settled (m : ℕ) (data : Data) (nb : ℕ) (s : ModelSettings F) : Prop where
  sigma2 : ∃ l, s.sigma2 = some l ∧ l.length = m
  N0 : ∃ l, s.N0 = some l ∧ l.length = m
  S20 : s.S20.length = m
  N : ∃ l, s.N = some l ∧ checkSizeOfObservations (dataCounts data.n) m = .ok l
  nbatch : s.nbatch = some nb

theorem checkSizeOfSetting_len {x y : List F} {b : Bool} (h : checkSizeOfSetting x m = .ok (y, b)) :
    y.length = m := by
  unfold checkSizeOfSetting at h
  split at h
  · cases h; simp
  · split at h
    · cases h
    · split at h
      · cases h
      · cases h; omega

theorem checkSizeOfSetting_exists {x : List F} (h : x.length = m) :
    ∃ y, checkSizeOfSetting x m = .ok y := by
  unfold checkSizeOfSetting
  split
  · exact ⟨_, rfl⟩
  · rw [if_neg (by omega), if_neg (by omega)]; exact ⟨_, rfl⟩

theorem arrayEqual_refl {l : List F} (h : ∀ x ∈ l, PyFloat.beq x x = true) : arrayEqual l l = true := by
  unfold arrayEqual
  simp only [decide_true, Bool.true_and, List.all_eq_true]
  intro b hb
  rw [List.zipWith_self, List.mem_map] at hb
  obtain ⟨x, hx, rfl⟩ := hb
  exact h x hx

theorem checkDependent_nbatch {s s1 : ModelSettings F} {n : List ℕ} {nb : ℕ}
    (h : checkDependentModelSettings s n nb = .ok s1) : s1.nbatch = some (s.nbatch.getD nb) := by
  unfold checkDependentModelSettings at h
  obtain ⟨Nl, _, h⟩ := bind_ok.1 h
  dsimp only at h
  have h := Except.ok.inj h
  rw [← h]
  split <;> rfl

/-- the settings after a set-up -/
theorem init_settled {s s1 s2 : ModelSettings F} {data : Data} {nb : ℕ}
    (hN : s.N = none ∨ ∃ l, s.N = some l ∧ checkSizeOfObservations (dataCounts data.n) m = .ok l)
    (hnb : s.nbatch.getD data.nbatch = nb)
    (h1 : checkDependentModelSettings s data.n data.nbatch = .ok s1)
    (h2 : checkWrtNsos s1 m = .ok s2) : Settled m data nb s2 := by
  unfold checkDependentModelSettings at h1
  obtain ⟨Nl, hNl, h1⟩ := bind_ok.1 h1
  dsimp only at h1
  have e1 : s1.N = some Nl ∧ s1.nbatch = some nb := by
    have h1 := Except.ok.inj h1
    rw [← h1, ← hnb]
    split <;> exact ⟨rfl, rfl⟩
  unfold checkWrtNsos at h2
  obtain ⟨⟨S20, f1⟩, g1, u1⟩ := bind_ok.1 h2
  obtain ⟨x0, g2, u2⟩ := bind_ok.1 u1
  obtain ⟨⟨N0, f2⟩, g3, u3⟩ := bind_ok.1 u2
  obtain ⟨x2, g6, u4⟩ := bind_ok.1 u3
  obtain ⟨⟨sg, f3⟩, g5, u5⟩ := bind_ok.1 u4
  obtain ⟨x3, g8, u6⟩ := bind_ok.1 u5
  obtain ⟨Nf, g7, u7⟩ := bind_ok.1 u6
  clear h2 u1 u2 u3 u4 u5 u6
  rw [orRaise_ok, e1.1] at g8
  obtain rfl := Option.some.inj g8
  cases u7
  refine ⟨⟨_, rfl, checkSizeOfSetting_len g5⟩, ⟨_, rfl, checkSizeOfSetting_len g3⟩,
    checkSizeOfSetting_len g1, ⟨_, rfl, ?_⟩, e1.2⟩
  rcases hN with hN | ⟨l, hN, hl⟩
  · rw [hN] at hNl
    cases hNl
    exact g7
  · rw [hN] at hNl
    have hNl : checkNumberOfObservations l (dataCounts data.n) = .ok Nl := hNl
    unfold checkNumberOfObservations at hNl
    split at hNl
    · cases hNl; exact g7
    · split at hNl
      · split at hNl
        · split at hNl <;> cases hNl
          exact g7
        · cases hNl
      · split at hNl
        · rename_i hlen
          split at hNl
          · rename_i d hd
            split at hNl <;> cases hNl
            rw [hd] at hl hlen ⊢
            cases hl
            simp only [List.length_replicate, List.length_singleton] at hlen
            have key : checkSizeOfObservations (List.replicate m (lit 1 * d)) m =
                .ok (List.replicate m (lit 1 * d)) := by
              obtain ⟨m, rfl⟩ : ∃ k, m = k + 2 := ⟨m - 2, by omega⟩
              rw [List.replicate_succ, List.replicate_succ]
              unfold checkSizeOfObservations
              dsimp only
              rw [if_neg (by simp), if_neg (by simp)]
            rw [← g7, key]
            rfl
          · cases hNl
        · cases hNl

/-- settled settings pass the checks of the next set-up -/
theorem settled_checks {s : ModelSettings F} {data : Data} {nb : ℕ} (h : Settled m data nb s)
    (hm : 0 < m) (hd : data.n.length = 1 ∨ m ≠ 1)
    (hint : ∀ k ∈ data.n, lit 1 * ofInt k = (ofInt k : F) ∧ PyFloat.beq (ofInt k : F) (ofInt k) = true) :
    ∃ s1 s2 M, checkDependentModelSettings s data.n data.nbatch = .ok s1 ∧ s1.nbatch = some nb ∧
      checkWrtNsos s1 m = .ok s2 ∧ toErrModel s2 m = .ok M := by
  obtain ⟨⟨sg, a1, a2⟩, ⟨n0, b1, b2⟩, c, ⟨l, d1, d2⟩, e⟩ := h
  have hbeq : ∀ x ∈ (dataCounts data.n : List F), PyFloat.beq x x = true := by
    intro x hx
    obtain ⟨k, hk, rfl⟩ := List.mem_map.1 hx
    exact (hint k hk).2
  -- the observation counts
  have hNum : ∃ N1, checkNumberOfObservations l (dataCounts data.n) = .ok N1 ∧
      ∃ N2, checkSizeOfObservations N1 m = .ok N2 := by
    by_cases h1 : data.n.length = 1
    · obtain ⟨k, hk⟩ := List.length_eq_one_iff.1 h1
      rw [hk] at d2 hint ⊢
      have hk' := hint k (by simp)
      have hl : l = List.replicate m (ofInt k) := by
        have := Except.ok.inj d2
        rw [← this, hk'.1]
      rw [hl]
      change ∃ N1, checkNumberOfObservations _ [ofInt (k : ℤ)] = _ ∧ _
      unfold checkNumberOfObservations
      split
      · exact ⟨_, rfl, _, rfl⟩
      · rename_i hne
        have hm1 : 1 < m := by
          by_contra hm1
          obtain rfl : m = 1 := by omega
          exact hne (arrayEqual_refl (by intro x hx; simp at hx; rw [hx]; exact hk'.2))
        rw [if_neg (by simp; omega), if_pos (by simpa using hm1)]
        dsimp only
        rw [if_pos (by simp [hk'.2])]
        refine ⟨_, rfl, ?_⟩
        unfold checkSizeOfObservations
        split
        · exact ⟨_, rfl⟩
        · rw [List.length_replicate, if_neg (by omega), if_neg (by omega)]
          exact ⟨_, rfl⟩
    · have hm1 := hd.resolve_left h1
      have hl : l = dataCounts data.n := by
        unfold checkSizeOfObservations at d2
        split at d2
        · rename_i x hx
          have := congrArg List.length hx
          simp [dataCounts] at this
          omega
        · split at d2
          · cases d2
          · rw [if_neg (by omega)] at d2
            exact (Except.ok.inj d2).symm
      refine ⟨dataCounts data.n, ?_, l, d2⟩
      unfold checkNumberOfObservations
      rw [hl, if_pos (arrayEqual_refl hbeq)]
  obtain ⟨N1, k1, N2, k2⟩ := hNum
  have key : ∃ s1, checkDependentModelSettings s data.n data.nbatch = .ok s1 ∧ s1.nbatch = some nb ∧
      s1.N = some N1 ∧ s1.N0 = some n0 ∧ s1.sigma2 = some sg ∧ s1.S20.length = m := by
    unfold checkDependentModelSettings
    rw [d1, a1, b1, e]
    change ∃ s1, (checkNumberOfObservations l (dataCounts data.n) >>= _) = _ ∧ _
    rw [k1, ok_bind]
    refine ⟨_, rfl, ?_⟩
    dsimp only [defaultN0, Option.getD]
    split <;> exact ⟨rfl, rfl, rfl, rfl, c⟩
  obtain ⟨s1, j1, j2, j3, j4, j5, j6⟩ := key
  have hS : s1.s20Now.length = m := by
    unfold ModelSettings.s20Now
    split
    · rw [j5]; exact a2
    · exact j6
  obtain ⟨⟨y1, f1⟩, z1⟩ := checkSizeOfSetting_exists hS
  obtain ⟨⟨y2, f2⟩, z2⟩ := checkSizeOfSetting_exists b2
  obtain ⟨⟨y3, f3⟩, z3⟩ := checkSizeOfSetting_exists a2
  have : ∃ s2, checkWrtNsos s1 m = .ok s2 ∧ s2.sigma2 = some y3 ∧ s2.N0 = some y2 ∧ s2.S20 = y1 ∧
      s2.N = some N2 := by
    unfold checkWrtNsos
    rw [z1, ok_bind, j4, j5, j3]
    change ∃ s2, (checkSizeOfSetting n0 m >>= fun _ => checkSizeOfSetting sg m >>= fun _ =>
      checkSizeOfObservations N1 m >>= fun _ => _) = _ ∧ _
    rw [z2, ok_bind, z3, ok_bind, k2, ok_bind]
    exact ⟨_, rfl, rfl, rfl, rfl, rfl⟩
  obtain ⟨s2, w1, w2, w3, w4, w5⟩ := this
  refine ⟨s1, s2, ?_⟩
  have : ∃ M, toErrModel s2 m = .ok M := by
    unfold toErrModel
    rw [w2, w3, w5]
    dsimp only
    rw [dif_pos ⟨checkSizeOfSetting_len z3, checkSizeOfSetting_len z2, by
      rw [w4]; exact checkSizeOfSetting_len z1⟩]
    exact ⟨_, rfl⟩
  obtain ⟨M, hM⟩ := this
  exact ⟨M, j1, j2, w1, hM⟩

/-- an object after any history of option changes and runs: before the first run its settings are the
user's, afterwards they are settled -/
theorem reachable_settled {U : UserFuns F N (nS flags) m} {o0 o : Obj F flags m}
    (hN : o0.ms.N = none) (h0 : o0.results = none) (h : Reachable U o0 o) :
    o.data = o0.data ∧ (o.results.isSome = false → o.ms = o0.ms) ∧
    (o.results.isSome → Settled m o0.data (o0.ms.nbatch.getD o0.data.nbatch) o.ms) := by
  induction h with
  | start => exact ⟨rfl, fun _ => rfl, by simp [h0]⟩
  | options a e _ ih => exact ih
  | @run o σ' G L fuel rng up out hr h ih =>
    obtain ⟨o1, I, s0, h1, h2, h3, h4, h5⟩ := runSimulation_ok h
    have hst : StartSpec U o o1 rng I s0 := (setup_start h1).1
    rw [h5]
    refine ⟨hst.data.trans ih.1, by simp, fun _ => ?_⟩
    obtain ⟨ms1, c1, c2, c3⟩ := hst.init.ms
    rw [hst.ms, hst.data, ih.1] at c1
    have hset : Settled m o0.data (o0.ms.nbatch.getD o0.data.nbatch) I.ms := by
      cases hs : o.results.isSome with
      | false =>
        rw [ih.2.1 hs] at c1
        exact init_settled (.inl hN) rfl c1 c2
      | true =>
        obtain ⟨_, _, _, hl, hb⟩ := ih.2.2 hs
        exact init_settled (.inr hl) (by rw [hb]; rfl) c1 c2
    exact ⟨⟨_, rfl, by simp⟩, hset.N0, hset.S20, hset.N, hset.nbatch⟩

/-- `_results_to_params` succeeds if there is a value for every index and a name for every entry -/
theorem resultsToParams_exists {parind : List ℕ} {names : List String} {theta : List F}
    {p : Fin N → ParamSpec F} (h1 : ∀ k ∈ parind, k < theta.length)
    (h2 : parind.length ≤ names.length) :
    ∃ q, resultsToParams flags parind names theta p = .ok q := by
  unfold resultsToParams
  have key : ∀ (l : List ℕ) (p : Fin N → ParamSpec F), (∀ i ∈ l, i < parind.length) →
      ∃ q, l.foldlM (fun p ii => do
        let parii ← pyGet parind ii
        let v ← pyGet theta parii
        let name ← pyGet names ii
        .ok (resultToParam flags name v p)) p = (.ok q : Except PyErr _) := by
    intro l
    induction l with
    | nil => intro p _; exact ⟨p, rfl⟩
    | cons i l ih =>
      intro p hl
      have hi : i < parind.length := hl i (by simp)
      have hp := h1 _ (List.getElem_mem hi)
      have e1 : pyGet parind i = .ok parind[i] := pyGet_ok.2 (by simp [hi])
      have e2 : pyGet theta parind[i] = .ok theta[parind[i]] := pyGet_ok.2 (by simp [hp])
      have e3 : pyGet names i = .ok (names[i]'(by omega)) := pyGet_ok.2 (by simp)
      rw [List.foldlM_cons, e1, ok_bind, e2, ok_bind, e3, ok_bind, ok_bind]
      exact ih _ fun j hj => hl j (by simp [hj])
  exact key _ p fun i hi => List.mem_range.1 hi

/-- the sum-of-squares evaluation returns if the function has a value at the vector -/
theorem evaluateSos_exists {n : ℕ} {P : Problem F N n m} {theta : Vec F n} {w : World F σ N} {ss : Vec F m}
    (h : SosAt P.style1 P.sosFun (writeAt P.parind theta w.value) ss) :
    ∃ w', evaluateSos P theta w = .ok (ss, w') := by
  unfold evaluateSos
  unfold SosAt at h
  dsimp only
  split at h
  · rename_i hs
    rw [if_pos hs]
    rcases h with h | ⟨h, h'⟩
    · rw [h]; exact ⟨_, rfl⟩
    · rw [h]; dsimp only; rw [h']; exact ⟨_, rfl⟩
  · rename_i hs
    rw [if_neg hs, h]; exact ⟨_, rfl⟩

/-- the covariance settings do not depend on the start point or on what an earlier run left -/
theorem initCovState_exists {n : ℕ} {L : Lapack F} {method : Method} {ntry : ℕ} {drscale : List F}
    {userRDR : Option (List (Mat F n))} {adascale initqcovn : Option F} {q : Qcov F}
    {parind : Fin n → Fin N} {noAdapt : Fin n → Bool} {theta0 theta1 : Vec F n}
    {prev prev' : Slot (List (Mat F n))} {c : CovState F n}
    (h : initCovState L method ntry drscale userRDR adascale initqcovn q parind noAdapt theta0 prev
      = .ok c) :
    ∃ c', initCovState L method ntry drscale userRDR adascale initqcovn q parind noAdapt theta1 prev'
      = .ok c' ∧ c'.qcov = c.qcov ∧ c'.R = c.R := by
  unfold initCovState at h ⊢
  obtain ⟨sc, g1, h⟩ := bind_ok.1 h
  obtain ⟨⟨R, qc⟩, g2, h⟩ := bind_ok.1 h
  rw [g1, ok_bind, g2, ok_bind]
  dsimp only at h ⊢
  split at h
  · rename_i hm
    obtain ⟨⟨R', l, il⟩, g3, h⟩ := bind_ok.1 h
    rw [if_pos hm, g3, ok_bind]
    cases h
    exact ⟨_, rfl, rfl, rfl⟩
  · rename_i hm
    rw [if_neg hm]
    cases h
    exact ⟨_, rfl, rfl, rfl⟩

/-- **C70**, what holds: let an object have completed a run in which the error variances were sampled.
Then it can be continued with any options with which it could have been started afresh (and which
give the proposal covariance), and the continued run starts with that covariance.  The hypotheses on
the data say that the number of data sets fits the sum-of-squares function, and that the numbers of
observations equal themselves in floating point. -/
theorem C70_continuation_set_up_partial {U : UserFuns F N (nS flags) m} {L : Lapack F} {o0 o : Obj F flags m}
    (h0 : o0.results = none) (hre : Reachable U o0 o) (hrun : o.results.isSome)
    (hs2 : o.chains.s2chain.isSome)
    (hN : o0.ms.N = none) (hm : 0 < m) (hd : o0.data.n.length = 1 ∨ m ≠ 1)
    (hint : ∀ k ∈ o0.data.n, lit 1 * ofInt k = (ofInt k : F) ∧
      PyFloat.beq (ofInt k : F) (ofInt k) = true)
    (hnd : (((List.finRange N).filter flags).map fun k => (o0.specs k).name).Nodup)
    (a : OptArgs F) (e : ExtraOpts F (nS flags)) (hq : e.qcov.isSome) (hj : e.jsonRestart = none)
    {rng : σ} {o1 : Obj F flags m} {I : Init F σ flags m} {s0 : SimState F σ N (nS flags) m}
    (hfresh : setupSimulator U L { o0 with opts := defineSimulationOptions a, extra := e } rng false
      = .ok (o1, I, s0)) :
    ∃ o1' I' s0', setupSimulator U L { o with opts := defineSimulationOptions a, extra := e } rng true
      = .ok (o1', I', s0') ∧ I'.cov.qcov = I.cov.qcov ∧ I'.cov.R = I.cov.R ∧
      o.chains.chain[o.chainIndex]? = some I'.initialSet.theta := by
  obtain ⟨hst, hpos, _, _, _, _, _, heq, hini, _⟩ := setup_fresh hfresh
  obtain rfl := heq hj
  have hpos' : 0 < (defineSimulationOptions a).nsimu := by
    rw [hst.init.opts] at hpos; exact hpos
  have hobj := reachable_objInv h0 hre
  have hresI := reachable_resInv h0 hnd hre
  obtain ⟨hdata, _, hset⟩ := reachable_settled hN h0 hre
  have hset := hset hrun
  obtain ⟨res, hres⟩ := Option.isSome_iff_exists.1 hrun
  obtain ⟨h1, h2, h3, last, h4, h5⟩ := hresI.res res hres
  obtain ⟨a', b', ha', hb', hlim, v, hv1, hv2⟩ := hobj.rows hrun o.chainIndex le_rfl
  rw [h4] at ha'
  cases ha'
  -- the parameters
  obtain ⟨specs, hsp⟩ := resultsToParams_exists (flags := flags) (parind := (sampledIdx flags).map (·.val))
    (names := res.names) (theta := List.ofFn res.theta) (p := o.specs)
    (by intro k hk; obtain ⟨j, _, rfl⟩ := List.mem_map.1 hk; simp)
    (by rw [h3]; simp)
  have hsame := hobj.same.trans (resultsToParams_same hsp)
  have hnm : res.names = (sampledIdx flags).map fun k => (o0.specs k).name := by
    rw [h3]; apply List.map_congr_left; intro k _; exact hobj.same.name k
  have hth : ∀ i, (specs (parindOf flags i)).theta0 = last i := by
    intro i
    rw [← h5]
    have hi : i.val < (sampledIdx flags).length := i.isLt
    obtain ⟨j, v, hj, hv, hq⟩ := resultsToParams_value (by rw [hnm]; exact hnd) hsp i.val
      (by simp) (parindOf flags i) (flags_parindOf i) (by
        rw [h3, List.getElem?_map, List.getElem?_eq_getElem hi]; rfl)
    rw [List.getElem?_map, List.getElem?_eq_getElem hi] at hj
    simp only [Option.map_some, Option.some.injEq] at hj
    subst hj
    rw [List.getElem?_ofFn] at hv
    split at hv
    · cases hv
      exact hq
    · cases hv
  -- the parts of the fresh set-up
  unfold initializeSimulation at hini
  obtain ⟨ms1, k1, hini⟩ := bind_ok.1 hini
  obtain ⟨_, k2, hini⟩ := bind_ok.1 hini
  obtain ⟨_, k3, hini⟩ := bind_ok.1 hini
  obtain ⟨cov, k4, hini⟩ := bind_ok.1 hini
  obtain ⟨⟨ss, w⟩, k5, hini⟩ := bind_ok.1 hini
  obtain ⟨ms2, k6, hini⟩ := bind_ok.1 hini
  obtain ⟨M, k7, hini⟩ := bind_ok.1 hini
  have hcov : I.cov = cov := by cases hini; rfl
  clear hini
  -- the continued set-up
  obtain ⟨s1, s2, M', c1, c2, c3, c4⟩ := settled_checks hset hm hd hint
  have hn1 : ms1.nbatch = some (o0.ms.nbatch.getD o0.data.nbatch) := by
    exact checkDependent_nbatch k1
  have j1 : checkDependentModelSettings o.ms o.data.n o.data.nbatch = .ok s1 := by rw [hdata]; exact c1
  have j2 : scanLocal flags specs (s1.nbatch.getD 0) = .ok () := by
    rw [c2, ← hn1]
    have : scanLocal flags specs = scanLocal flags o0.specs := by
      funext nb; unfold scanLocal; simp only [hsame.loc]
    rw [this]; exact k2
  have j3 : checkLimits flags specs = .ok () := by
    unfold checkLimits at k3 ⊢
    simp only [hsame.minimum, hsame.maximum]
    split at k3
    · rename_i hle
      rw [if_pos hle, if_neg]
      rw [Bool.not_eq_true, isOutside_eq_false]
      intro i
      unfold atParind
      dsimp only
      rw [hth i]
      exact hlim i (parindOf flags i) (by
        have hi : i.val < (sampledIdx flags).length := i.isLt
        exact List.getElem?_eq_getElem hi)
    · cases k3
  have hcovq : setupCovarianceMatrix e.qcov (fun k => setupPriorSigma (specs k).priorSigma)
        (fun k => (specs k).theta0) =
      setupCovarianceMatrix e.qcov (fun k => setupPriorSigma (o0.specs k).priorSigma)
        (fun k => (o0.specs k).theta0) := by
    obtain ⟨q, hq⟩ := Option.isSome_iff_exists.1 hq
    rw [hq]; rfl
  obtain ⟨c', j4, j4', j4''⟩ := initCovState_exists (theta1 := atParind flags fun k => (specs k).theta0)
    (prev' := o.covRDR) k4
  have hval : writeAt (parindOf flags) (atParind flags fun k => (specs k).theta0)
      (fun k => (specs k).theta0) = v := by
    obtain ⟨e1, e2⟩ := belongsTo_eq hv1
    have hself := writeAt_self (parindOf_injective flags) (v := fun k => (specs k).theta0)
      (theta := atParind flags fun k => (specs k).theta0) (fun _ => rfl)
    rw [hself]
    funext k
    cases hk : flags k with
    | false => rw [e2 k hk, hsame.fixed k hk]
    | true =>
      obtain ⟨i, rfl⟩ := exists_parindOf hk
      rw [e1, hth]
  obtain ⟨w', j5⟩ := evaluateSos_exists (σ := σ) (P :=
      { parind := parindOf flags
        lower := atParind flags fun k => (specs k).minimum
        upper := atParind flags fun k => (specs k).maximum
        style1 := U.style1, sosFun := U.sosFun
        prior := fun th => U.priorFun th
          (atParind flags fun k => setupPriorMu (specs k).priorMu (specs k).theta0)
          (atParind flags fun k => setupPriorSigma (specs k).priorSigma) })
    (theta := atParind flags fun k => (specs k).theta0) (w := ⟨rng, fun k => (specs k).theta0, []⟩)
    (ss := b') (by dsimp only; rw [hval]; exact hv2)
  have key : ∃ I', initializeSimulation U L
      { o with specs := specs, opts := defineSimulationOptions a, extra := e } rng = .ok I' ∧
      I'.cov = c' ∧ I'.opts.nsimu = (defineSimulationOptions a).nsimu ∧
      I'.initialSet.theta = atParind flags fun k => (specs k).theta0 := by
    unfold initializeSimulation
    dsimp only
    rw [j1, ok_bind, j2, ok_bind, j3, ok_bind]
    have j4 : initCovState L (checkDependentSimulationOptions (defineSimulationOptions a) o.ms.N0.isSome).method
        (checkDependentSimulationOptions (defineSimulationOptions a) o.ms.N0.isSome).ntry.toNat e.drscale e.RDR
        (checkDependentSimulationOptions (defineSimulationOptions a) o.ms.N0.isSome).adascale
        (checkDependentSimulationOptions (defineSimulationOptions a) o.ms.N0.isSome).initqcovn
        (setupCovarianceMatrix e.qcov (fun k => setupPriorSigma (specs k).priorSigma)
          (fun k => (specs k).theta0)) (parindOf flags)
        (fun i => setupAdapting (specs (parindOf flags i)).adapt (flags (parindOf flags i))
          != flags (parindOf flags i)) (atParind flags fun k => (specs k).theta0) o.covRDR = .ok c' := by
      rw [hcovq]
      simp only [hsame.adapt]
      exact j4
    rw [j4, ok_bind, j5, ok_bind]
    dsimp only
    rw [c3, ok_bind, c4, ok_bind]
    exact ⟨_, rfl, rfl, rfl, rfl⟩
  obtain ⟨I', hI, e1, e2, e3⟩ := key
  obtain ⟨s2c, hs2c⟩ := Option.isSome_iff_exists.1 hs2
  have hex : ∃ r, expandChains I'.opts.nsimu.toNat I'.opts.updatesigma o.chains.chain
      o.chains.sschain o.chains.s2chain = .ok r := by
    unfold expandChains
    rw [if_neg (by omega), hs2c]
    dsimp only
    split <;> exact ⟨_, rfl⟩
  obtain ⟨⟨r1, r2, r3⟩, hex⟩ := hex
  refine ⟨{ o with specs := specs, opts := defineSimulationOptions a, extra := e }, I',
    startState I' o.chainIndex ⟨r1, r2, r3⟩ (match o.logChains with
        | some lc => .stale lc.chain lc.sschain lc.s2chain
        | none => .live), ?_, by rw [e1, j4', hcov], by rw [e1, j4'', hcov], ?_⟩
  · unfold setupSimulator
    rw [if_pos rfl]
    dsimp only
    rw [hres] at hI ⊢
    dsimp only
    rw [hsp, ok_bind]
    rw [hI, ok_bind, hex, ok_bind]
    rfl
  · rw [h4, e3]
    congr 1
    funext i
    exact (hth i).symm

/-- **C70**, what does not hold: a completed run in which the error variances were not sampled (neither
`updatesigma` nor `N0` given) leaves the object in a state in which no continuation succeeds, whatever
options are given: the first run fills in `N0`, which switches the sampling on in the second, for
which there is no chain of variances to extend. -/
theorem C70_without_sampling_refuted {U : UserFuns F N (nS flags) m} {o : Obj F flags m} {G : Rng σ F}
    {L : Lapack F} {fuel : ℕ} {rng : σ} {up : Bool} {out : RunOut F σ flags m}
    (h : runSimulation U G L fuel o rng up = .ok out)
    (hN0 : o.ms.N0 = none) (hu : o.opts.updatesigma = false)
    (a : OptArgs F) (e : ExtraOpts F (nS flags)) {σ' : Type} (G' : Rng σ' F) (L' : Lapack F) (fuel' : ℕ)
    (rng' : σ') (out' : RunOut F σ' flags m) :
    runSimulation U G' L' fuel' { out.obj with opts := defineSimulationOptions a, extra := e } rng' true
      ≠ .ok out' := by
  intro h'
  obtain ⟨g1, _, g3⟩ := run_updatesigma h
  obtain ⟨_, g1⟩ := g1 hN0 hu
  obtain ⟨o1, I, s0, _, _, h3, _, h5⟩ := runSimulation_ok h
  have hs2 : out.obj.chains.s2chain = none := by
    rw [h5]; dsimp only
    rw [← (generateResults_ok h3).2.2.2.2.2.2.2.1]; exact g1
  obtain ⟨o1', I', s0', k1, _⟩ := runSimulation_ok h'
  obtain ⟨hst, _, _, _, _, _, k2, _⟩ := setup_continue k1
  have hup : I'.opts.updatesigma = true := by
    rw [hst.init.opts, hst.ms]
    change (if out.obj.ms.N0.isSome then true else _) = true
    rw [if_pos g3]
  have k2 : out.obj.chains.s2chain.isSome := k2 hup
  rw [hs2] at k2
  cases k2

/-- the first run completes without sampling, the second one fails: `np.concatenate` with `None` -/
example : ∃ out, Toy.run .dram 4 = .ok out ∧ (Toy.obj .dram 4).ms.N0 = none ∧
    (Toy.obj .dram 4).opts.updatesigma = false ∧
    runSimulation Toy.user Toy.rng Toy.lapack 100 out.obj out.final.world.rng true =
      .error .valueError := by
  obtain ⟨out, h, hu⟩ := exists_ok_and (x := Toy.run .dram 4)
    (fun out => match runSimulation Toy.user Toy.rng Toy.lapack 100 out.obj out.final.world.rng true with
      | .error .valueError => true | _ => false) (by decide +kernel)
  refine ⟨out, h, rfl, rfl, ?_⟩
  split at hu
  · assumption
  · cases hu

namespace XRun
open Matrix

/-- five rows, adaptations in the iterations 2 and 4, error variances sampled -/
noncomputable def contArgs : OptArgs XR :=
  { nsimu := 5, adaptint := some 2, method := .am, updatesigma := true }

theorem gamma_returns (k : ℕ) {a : ℝ} (ha : 1 ≤ a) (b : XR) (s : Unit) :
    gammar rng (k + 1) (.fin a) b s ≠ .error .outOfFuel := by
  have hd : 0 < 9 * (a - 1 / 3) := by linarith
  have hs : Real.sqrt (9 * (a - 1 / 3)) ≠ 0 := (Real.sqrt_pos.2 hd).ne'
  have hc : 0 < 1 + 1 / Real.sqrt (9 * (a - 1 / 3)) * 1 := by positivity
  have hin : mtInner rng (.fin (1 / Real.sqrt (9 * (a - 1 / 3)))) (k + 1) s =
      .ok (.fin 1, .fin (1 + 1 / Real.sqrt (9 * (a - 1 / 3)) * 1), ()) := by
    unfold mtInner
    simp only [rng, XR.lit_eq, XR.fin_mul, XR.fin_add, Rat.cast_one, Rat.cast_zero, XR.fin_lt]
    rw [if_pos (by simpa using hc)]
  have hout : ∀ d, ∃ v, mtOuter rng (.fin (1 / Real.sqrt (9 * (a - 1 / 3)))) d (k + 1) s = .ok (v, ()) := by
    intro d
    unfold mtOuter
    rw [hin, ok_bind]
    dsimp only
    rw [if_pos]
    · exact ⟨_, rfl⟩
    · simp only [mtQuick, rng, XR.lit_eq, XR.fin_mul, XR.fin_sub, XR.fin_lt]
      norm_num
  unfold gammar
  rw [if_neg (by simp; linarith)]
  unfold gammarMt1
  rw [if_neg (by simp; linarith)]
  obtain ⟨v, hv⟩ := hout (.fin (a - 1 / 3))
  have e1 : (XR.fin a - lit (1 / 3) : XR) = .fin (a - 1 / 3) := by simp
  have e2 : (lit 1 / PyFloat.sqrt (lit 9 * .fin (a - 1 / 3)) : XR) =
      .fin (1 / Real.sqrt (9 * (a - 1 / 3))) := by
    simp only [XR.lit_eq, XR.fin_mul]
    rw [XR.sqrt_fin (by push_cast; exact hd.le), XR.fin_div (by push_cast; exact hs)]
    push_cast
    rfl
  dsimp only
  rw [e1, e2, hv, ok_bind]
  nofun

theorem settings_N0 {s s1 s2 : ModelSettings XR} {n : List ℕ} {nb : ℕ}
    (h : s.N0 = some [.fin 1] ∨ (s.N0 = none ∧ s.sigma2.isSome))
    (h1 : checkDependentModelSettings s n nb = .ok s1) (h2 : checkWrtNsos s1 1 = .ok s2) :
    s2.N0 = some [.fin 1] := by
  have e1 : s1.N0 = some [.fin 1] := by
    unfold checkDependentModelSettings at h1
    obtain ⟨Nl, _, h1⟩ := bind_ok.1 h1
    dsimp only at h1
    have e : (defaultN0 s.sigma2 s.N0).2 = [.fin 1] := by
      rcases h with h | ⟨h, h'⟩
      · rw [h]; rfl
      · obtain ⟨v, hv⟩ := Option.isSome_iff_exists.1 h'
        rw [h, hv]
        simp [defaultN0]
    rw [e] at h1
    have h1 := Except.ok.inj h1
    rw [← h1]
    split <;> rfl
  unfold checkWrtNsos at h2
  obtain ⟨⟨S20, f1⟩, g1, u1⟩ := bind_ok.1 h2
  obtain ⟨x0, g2, u2⟩ := bind_ok.1 u1
  obtain ⟨⟨N0, f2⟩, g3, u3⟩ := bind_ok.1 u2
  obtain ⟨x2, g6, u4⟩ := bind_ok.1 u3
  obtain ⟨⟨sg, f3⟩, g5, u5⟩ := bind_ok.1 u4
  obtain ⟨x3, g8, u6⟩ := bind_ok.1 u5
  obtain ⟨Nf, g7, u7⟩ := bind_ok.1 u6
  clear h2 u1 u2 u3 u4 u5 u6
  rw [orRaise_ok, e1] at g2
  obtain rfl := Option.some.inj g2
  have g3 : (Except.ok (List.replicate 1 (lit 1 * XR.fin 1), true) : Except PyErr _) = .ok (N0, f2) := g3
  have g3 := congrArg Prod.fst (Except.ok.inj g3)
  cases u7
  dsimp only at g3 ⊢
  rw [← g3]
  simp

theorem no_runsOut {s : ModelSettings XR} {M : ErrModel XR 1} {k nb : ℕ} (h : Settled 1 data nb s)
    (hN0 : s.N0 = some [.fin 1]) (hM : toErrModel s 1 = .ok M) : ¬ RunsOut rng (k + 1) M.N0 M.N := by
  obtain ⟨⟨sg, a1, a2⟩, _, c, ⟨l, d1, d2⟩, _⟩ := h
  have hl : l = [.fin 5] := by
    have d2 : (Except.ok (List.replicate 1 (lit 1 * (ofInt (5 : ℕ) : XR))) : Except PyErr _) = .ok l := d2
    rw [← Except.ok.inj d2]
    simp [ofInt]
  unfold toErrModel at hM
  rw [a1, hN0, d1, hl] at hM
  dsimp only at hM
  rw [dif_pos ⟨a2, rfl, c⟩] at hM
  cases hM
  rintro ⟨j, Nj, S20, SS, u, h1, h2⟩
  obtain rfl : j = 0 := Subsingleton.elim _ _
  obtain rfl : XR.fin 5 = Nj := Option.some.inj h1
  have e : (lit (1 / 2) * (XR.fin 1 + XR.fin 5) : XR) = .fin 3 := by
    simp; norm_num
  change gammar rng (k + 1) (lit (1 / 2) * (XR.fin 1 + XR.fin 5)) _ u = _ at h2
  rw [e] at h2
  exact gamma_returns k (by norm_num) _ u h2

theorem cont_inputs {o : Obj XR XRun.flags 1} (h : o.extra = extra 1 1)
    (h' : o.opts = defineSimulationOptions contArgs) : ExactInputs rng exactLapack o where
  lapack := exactLapack_ok
  draws _ := ⟨fun _ => 1, rfl⟩
  adjust := ⟨1, by rw [h]; rfl⟩
  burnin := ⟨10, by rw [h]; rfl, by norm_num⟩
  drscale := ⟨[5], by rw [h]; rfl, by simp⟩
  noRam := by rw [h']; rfl
  weight := .inl (by rw [h']; rfl)
  scale := ⟨_, .inl ⟨by rw [h']; rfl, rfl⟩⟩
  RDR := by rw [h]; nofun

/-- The first run completes, the second continues it and completes as well; all rows are finite. -/
theorem cont_runs : ∃ out out',
    runSimulation user rng exactLapack 1 (obj contArgs) () false = .ok out ∧
    runSimulation user rng exactLapack 1
      { out.obj with opts := defineSimulationOptions contArgs, extra := extra 1 1 } () true = .ok out' ∧
    (∀ row ∈ out'.results.chain, ∃ r, row = finVec r) := by
  obtain ⟨⟨o1, I, s0⟩, h⟩ := setup_ok exactLapack contArgs (by decide) rfl (by decide) true 1 1
  have hst := (setup_fresh h).1
  obtain rfl := (setup_fresh h).2.2.2.2.2.2.2.1 rfl
  have hcov := initializeSimulation_cov (setupSimulator_init h)
  obtain ⟨_, ⟨R, hR, _⟩, _⟩ := initCovState_ok hcov
  have hq : I.cov.qcov = finMx 1 := by rw [setupR hR, Matrix.diagonal_one]
  obtain ⟨ms1, k1, k2, k3⟩ := hst.init.ms
  have hset : Settled 1 data 1 I.ms := init_settled (.inl rfl) rfl k1 k2
  have hN0 := settings_N0 (.inr ⟨rfl, rfl⟩) k1 k2
  have hfirst : ∃ out, runSimulation user rng exactLapack 1 (obj contArgs) () false = .ok out ∧
      ∀ row ∈ out.results.chain, ∃ r, row = finVec r := by
    rcases C65_exact_run_returns (fuel := 1) (cont_inputs rfl rfl) h (by change (1 : ℤ) < 5; decide)
      (by decide) (fun v => by simp [user]) (fun h => absurd h (by change ¬ (1 : ℤ) < 1; decide))
      (show data.n ≠ [] by decide) (t := fun _ => 0) (by rw [hst.init.theta]; rfl) hq PosDef.one with
      ⟨out, h, h', _⟩ | ⟨_, _, h2⟩
    · exact ⟨out, h, h'⟩
    · exact absurd h2 (no_runsOut hset hN0 k3)
  obtain ⟨out, hrun, hrows⟩ := hfirst
  have hre : Reachable user (obj contArgs) out.obj := .run _ _ _ _ _ _ .start hrun
  obtain ⟨p1, p2, p3, r1, r2, r3, r4, r5⟩ := runSimulation_ok hrun
  rw [h] at r1
  cases r1
  obtain ⟨_, _, _, _, _, g1, _, g2, _⟩ := generateResults_ok r3
  have hchain : out.obj.chains.chain = out.results.chain := by rw [r5, g1]
  have hs2 : out.obj.chains.s2chain.isSome := by
    rw [r5, ← g2]
    exact (run_updatesigma hrun).2.1 (.inr rfl)
  have hms : out.obj.ms = settingsAfter I.ms out.final.errModel := by rw [r5]
  obtain ⟨o2, I2, s2, h2, hq2, _, hth2⟩ := C70_continuation_set_up_partial (L := exactLapack) (rng := ())
    (o0 := obj contArgs) rfl hre (by rw [r5]; rfl) hs2 rfl one_pos (.inl rfl)
    (by intro k _; simp [ofInt]) (by decide) contArgs (extra 1 1) rfl rfl h
  have hst2 := (setup_start h2).1
  obtain ⟨ms2, k4, k5, k6⟩ := hst2.init.ms
  rw [hst2.ms, hst2.data] at k4
  have hset2 : Settled 1 data 1 out.obj.ms := by
    rw [hms]
    exact ⟨⟨_, rfl, by simp⟩, hset.N0, hset.S20, hset.N, hset.nbatch⟩
  have hdata : out.obj.data = data := by rw [r5]; rfl
  have hset3 : Settled 1 data 1 I2.ms := by
    refine init_settled (.inr hset2.N) (by rw [hset2.nbatch]; rfl) ?_ k5
    rw [← hdata]; exact k4
  have hN2 : I2.ms.N0 = some [.fin 1] :=
    settings_N0 (.inl (show out.obj.ms.N0 = _ by rw [hms]; exact hN0)) k4 k5
  obtain ⟨t2, ht2⟩ := hrows _ (by rw [← hchain]; exact List.mem_of_getElem? hth2)
  refine ⟨out, ?_⟩
  rcases C65_continued_run_returns (fuel := 1) (o0 := obj contArgs) (cont_inputs rfl rfl) h2 rfl
    (.options contArgs (extra 1 1) hre) (by rw [← hchain] at hrows; exact hrows)
    (by change (1 : ℤ) < 5; decide)
    (by decide) (fun v => by simp [user]) (fun h => absurd h (by change ¬ (1 : ℤ) < 1; decide))
    (show out.obj.data.n ≠ [] by rw [hdata]; decide) (t := t2) ht2 (hq2.trans hq) PosDef.one with
    ⟨out', h, h', _⟩ | ⟨_, _, h2⟩
  · exact ⟨out', hrun, h, h'⟩
  · exact absurd h2 (no_runsOut hset3 hN2 k6)

end XRun

/-- the hypotheses of `C70_continuation_set_up_partial` and of `C65_continued_run_returns` can be met
(both are used for this): a run continued in exact arithmetic, the error variances sampled -/
example : ∃ out out',
    runSimulation XRun.user XRun.rng exactLapack 1 (XRun.obj XRun.contArgs) () false = .ok out ∧
    runSimulation XRun.user XRun.rng exactLapack 1
      { out.obj with opts := defineSimulationOptions XRun.contArgs, extra := XRun.extra 1 1 } () true
      = .ok out' ∧ out.results.chain.length = 5 ∧ out'.results.chain.length = 9 := by
  obtain ⟨out, out', h, h', _⟩ := XRun.cont_runs
  obtain ⟨i1, j1, j2, _⟩ := run_objInv (o0 := XRun.obj XRun.contArgs)
    (reachable_objInv rfl .start) h
  have hre : Reachable XRun.user (XRun.obj XRun.contArgs)
    { out.obj with opts := defineSimulationOptions XRun.contArgs, extra := XRun.extra 1 1 } :=
    .options _ _ (.run _ _ _ _ _ _ .start h)
  obtain ⟨o1, I, s0, h1, h2, h3, _, h5⟩ := runSimulation_ok h
  obtain ⟨hst, _, hci, hch, _⟩ := setup_fresh h1
  have hn : I.opts.nsimu = 5 := by rw [hst.init.opts, hst.opts]; rfl
  obtain ⟨_, _, g3, _⟩ := run_good (G := XRun.rng) (L := exactLapack) (fuel := 1) rfl hst h2
  have l1 : out.results.chain.length = 5 := by
    rw [(generateResults_ok h3).2.2.2.2.2.1, g3, hch, hn]; simp [zeroRows]
  refine ⟨out, out', h, h', l1, ?_⟩
  obtain ⟨p1, J, t0, k1, k2, k3, _, _⟩ := runSimulation_ok h'
  obtain ⟨hst', _, _, hch', _⟩ := setup_continue k1
  have hn' : J.opts.nsimu = 5 := by rw [hst'.init.opts, hst'.opts]; rfl
  obtain ⟨_, _, g3', _⟩ := run_good (G := XRun.rng) (L := exactLapack) (fuel := 1) rfl hst' k2
  have e : out.obj.chains.chain.length = 5 := by rw [j2]; exact l1
  rw [(generateResults_ok k3).2.2.2.2.2.1, g3', hch', hn', List.length_append]
  dsimp only
  rw [e]; simp [zeroRows]

end Verif
