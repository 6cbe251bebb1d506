import Verif.Spec.Console
import Verif.Lemmas.RejCount

/-! # Runs with console output -/

set_option linter.unusedSectionVars false

namespace Verif
variable {F σ : Type} [PyFloat F] {N n m : ℕ}

theorem checkForSingularV_fst (L : Lapack F) (v : ℤ) (up R : Mat F n) (a b : F) (rej : Rejected) (ii : ℕ) :
    (checkForSingularV L v up R a b rej ii).1 = checkForSingular L up R a b := by
  unfold checkForSingularV checkForSingular adjustCovMatrix
  dsimp only
  cases isSemiPosDefChol L up with
  | some Ra => rfl
  | none => cases isSemiPosDefChol L (matAdd up (matScale matEye a)) <;> rfl

theorem map_bind {α β γ : Type} (x : Except PyErr α) (f : α → Except PyErr β) (g : β → γ) :
    (x >>= f).map g = x >>= fun a => (f a).map g := by
  cases x <;> rfl

theorem runAdaptationV_fst (L : Lapack F) (v : ℤ) (c : CovState F n) (o : AdaptOpts F) (i ii : ℕ)
    (rej : Rejected) (ch : List (Vec F n)) (k : ℕ) (u : Vec F n) (al : Option F) :
    (runAdaptationV L v c o i ii rej ch k u al).map Prod.fst = runAdaptation L c o i ii rej ch k u al := by
  unfold runAdaptationV runAdaptation
  split
  · rfl
  · dsimp only
    rw [map_bind]
    congr 1
    funext ⟨a, b, w⟩
    rw [map_bind]
    congr 1
    funext up
    dsimp only
    rw [map_bind, checkForSingularV_fst]
    congr 1

theorem adaptV_fst (E : Env F σ N n m) (v : ℤ) (i : ℕ) (s : SimState F σ N n m) (p : Proposal F σ N n m) :
    (adaptV E v i s p).map Prod.fst = adapt E i s p := by
  unfold adaptV adapt
  split
  · rw [map_bind, ← runAdaptationV_fst E.lapack v]
    cases runAdaptationV E.lapack v s.cov E.opts.toAdaptOpts i s.iiadapt s.rejected
      s.chain s.chainIndex p.u p.newSet.alpha <;> rfl
  · rfl

theorem verboseStep_sim (E : Env F σ N n m) (v : ℤ) (k : Option ℤ) (c : Console F σ N n m) (i : ℕ) :
    (verboseStep E v k c i).map (fun c => c.sim) = simStep E c.sim i := by
  unfold verboseStep simStep
  dsimp only
  rw [map_bind]
  congr 1
  funext p
  rw [map_bind]
  congr 1
  funext s
  rw [map_bind, ← adaptV_fst E v]
  cases adaptV E v i s p with
  | error e => rfl
  | ok x =>
    obtain ⟨s2, l⟩ := x
    change ((sampleSigma E s2 >>= _).map _ : Except PyErr _) = sampleSigma E s2 >>= _
    rw [map_bind]
    rfl

theorem verboseFold_sim (E : Env F σ N n m) (v : ℤ) (k : Option ℤ) : ∀ (l : List ℕ) (c : Console F σ N n m),
    (l.foldlM (verboseStep E v k) c).map (fun c => c.sim) = l.foldlM (simStep E) c.sim
  | [], _ => rfl
  | i :: l, c => by
      rw [List.foldlM_cons, List.foldlM_cons, ← verboseStep_sim E v k]
      cases verboseStep E v k c i with
      | error e => rfl
      | ok c' => exact verboseFold_sim E v k l c'

theorem verboseSimulator_sim (E : Env F σ N n m) (v : ℤ) (k : Option ℤ) (s : SimState F σ N n m)
    (l : List (Line F)) :
    (verboseSimulator E v k s l).map (fun c => c.sim) = executeSimulator E s := by
  unfold verboseSimulator executeSimulator
  dsimp only
  rw [← verboseFold_sim E v k (List.range' 1 (E.opts.nsimu - 1))
    ⟨{ s with iiadapt := 0, savecount := 0, lastbin := 0, rejected := ⟨0, 0, 0⟩ }, 0, l⟩]
  cases List.foldlM (verboseStep E v k) _ (List.range' 1 (E.opts.nsimu - 1)) with
  | error e => rfl
  | ok c =>
    simp only [Except.map, ok_bind]
    cases finish E.opts.nsimu c.sim <;> rfl

/-- The run with output, when the output itself does not fail. -/
theorem runVerbose_run {flags : Fin N → Bool} (U : UserFuns F N (nS flags) m) (G : Rng σ F)
    (L : Lapack F) (fuel : ℕ) (v : ℤ) (o : Obj F flags m) (rng : σ) (up : Bool)
    (hd : ∀ o1 I s0, setupSimulator U L o rng up = .ok (o1, I, s0) →
      ∃ l, displayCurrentSettings v s0.cov = .ok l) :
    (runVerbose U G L fuel v o rng up).map Prod.fst = runSimulation U G L fuel o rng up := by
  unfold runVerbose runSimulation
  rw [map_bind]
  cases h0 : setupSimulator U L o rng up with
  | error e => rfl
  | ok x =>
    obtain ⟨o1, I, s0⟩ := x
    obtain ⟨l, hl⟩ := hd o1 I s0 h0
    rw [ok_bind, ok_bind]
    dsimp only
    rw [hl, ok_bind, map_bind, ← verboseSimulator_sim (k := I.opts.printint) (v := v)
      (l := message v 2 .priorNote ++ displayParameterSettings flags o1.specs v ++ l)]
    cases verboseSimulator ⟨I.problem, G, L, runOpts I.opts o1.extra, fuel⟩ v I.opts.printint s0
      (message v 2 .priorNote ++ displayParameterSettings flags o1.specs v ++ l) with
    | error e => rfl
    | ok c =>
      simp only [Except.map, ok_bind]
      cases generateResults o1 I c.sim <;> rfl

/-- the rejections counted when the report of an iteration is printed -/
def countsAt (s : SimState F σ N n m) (p : Proposal F σ N n m) : Rejected :=
  if p.accept then s.rejected else ⟨s.rejected.total + 1, s.rejected.inInterval + 1,
    s.rejected.outside + if p.outbound then 1 else 0⟩

/-- The effect of one iteration on state, print counter and output. -/
theorem verboseStep_ok {E : Env F σ N n m} {v : ℤ} {k : Option ℤ} {c c' : Console F σ N n m} {i : ℕ}
    (h : verboseStep E v k c i = .ok c') : ∃ p l2 l3, StepSpec E i c.sim c'.sim p ∧
      printRejections v k (c.iiprint + 1) i (c.sim.iiadapt + 1) (countsAt c.sim p) = (c'.iiprint, l2) ∧
      c'.lines = c.lines ++ (message v 100 (.iteration i E.opts.nsimu) ++ l2 ++ l3) ∧
      if adaptNow E c.sim then
        runAdaptationV E.lapack v c.sim.cov E.opts.toAdaptOpts i (c.sim.iiadapt + 1) (countsAt c.sim p)
          c'.sim.chain (c.sim.chainIndex + 1) p.u p.newSet.alpha = .ok (c'.sim.cov, l3)
      else l3 = [] := by
  have hs : simStep E c.sim i = .ok c'.sim := by rw [← verboseStep_sim E v k, h]; rfl
  obtain ⟨p, hp⟩ := simStep_ok hs
  unfold verboseStep at h
  obtain ⟨p', hp', h⟩ := bind_ok.1 h
  have : p' = p := by
    have h1 := hp.prop
    have h2 : propose E c.sim = .ok p' := hp'
    rw [h2] at h1
    exact Except.ok.inj h1
  subst this
  obtain ⟨s1, h1, h⟩ := bind_ok.1 h
  dsimp only at h
  obtain ⟨⟨s2, l3⟩, h2, h⟩ := bind_ok.1 h
  obtain ⟨s3, h3, h⟩ := bind_ok.1 h
  replace h := (Except.ok.inj h).symm
  obtain ⟨hl, hl', e1⟩ := record_ok h1
  have hcnt : s1.rejected = countsAt c.sim p' := by
    rw [e1]; rfl
  have hii : s1.iiadapt = c.sim.iiadapt + 1 := by rw [e1]
  have hch : c'.sim.chain = s1.chain := by rw [hp.chain, e1]; rfl
  have hci : s1.chainIndex = c.sim.chainIndex + 1 := by rw [e1]
  have hco : s1.cov = c.sim.cov := by rw [e1]
  have hnow : (0 < E.opts.adaptint ∧ (s1.iiadapt : ℤ) = E.opts.adaptint) ↔ adaptNow E c.sim := by
    rw [hii]; rfl
  have hcov : c'.sim.cov = s2.cov := by
    rw [h]
    dsimp only
    rw [saveStep_eq, (sampleSigma_ok h3).2]
  refine ⟨p', (printRejections v k (c.iiprint + 1) i (c.sim.iiadapt + 1) (countsAt c.sim p')).2, l3, hp, ?_, ?_, ?_⟩
  · rw [h]
    dsimp only
    rw [hii, hcnt]
  · rw [h]
    dsimp only
    rw [hii, hcnt]
  · unfold adaptV at h2
    by_cases hn : adaptNow E c.sim
    · rw [if_pos (hnow.2 hn)] at h2
      rw [if_pos hn]
      obtain ⟨⟨cv, ls⟩, h4, h2⟩ := bind_ok.1 h2
      dsimp only at h2
      have h2 := Except.ok.inj h2
      rw [Prod.mk.injEq] at h2
      rw [hch, hcov, ← h2.1, ← h2.2, ← hcnt, ← hii, ← hci, ← hco]
      exact h4
    · rw [if_neg (fun hh => hn (hnow.1 hh))] at h2
      rw [if_neg hn]
      exact (congrArg Prod.snd (Except.ok.inj h2)).symm

/-- Rule for invariants of `verboseSimulator`. -/
theorem verboseSimulator_inv {E : Env F σ N n m} {v : ℤ} {k : Option ℤ} {s : SimState F σ N n m}
    {l : List (Line F)} {c' : Console F σ N n m}
    (P : ℕ → Console F σ N n m → Prop) (h0 : P 1 ⟨loopStart s, 0, l⟩)
    (hs : ∀ i c c', 1 ≤ i → i < E.opts.nsimu → P i c → verboseStep E v k c i = .ok c' → P (i + 1) c')
    (h : verboseSimulator E v k s l = .ok c') :
    1 < E.opts.nsimu ∧ ∃ c1, P E.opts.nsimu c1 ∧ c'.lines = c1.lines ∧ c'.sim =
      { c1.sim with
        logs := c1.sim.logs ++ [mkBlock c1.sim c1.sim.lastbin E.opts.nsimu]
        covlogs := c1.sim.covlogs ++ [(c1.sim.lastbin, E.opts.nsimu - 1, rtr c1.sim.cov.R)] } := by
  unfold verboseSimulator at h
  obtain ⟨c1, h1, h⟩ := bind_ok.1 h
  obtain ⟨s1, h2, h⟩ := bind_ok.1 h
  unfold finish at h2
  split at h2
  · cases h2
  · rename_i hn
    refine ⟨by omega, c1, ?_, ?_, ?_⟩
    · have := foldlM_range'_inv (P := P) (E.opts.nsimu - 1) 1 _ c1 h0
        (fun i a b hi hi' hP hst => hs i a b hi (by omega) hP hst) h1
      rwa [show 1 + (E.opts.nsimu - 1) = E.opts.nsimu by omega] at this
    · rw [← Except.ok.inj h]
    · rw [← Except.ok.inj h, ← Except.ok.inj h2, show E.opts.nsimu - 1 + 1 = E.opts.nsimu by omega]

theorem runVerbose_ok {flags : Fin N → Bool} {U : UserFuns F N (nS flags) m} {G : Rng σ F}
    {L : Lapack F} {fuel : ℕ} {v : ℤ} {o : Obj F flags m} {rng : σ} {up : Bool}
    {out : RunOut F σ flags m} {lines : List (Line F)}
    (h : runVerbose U G L fuel v o rng up = .ok (out, lines)) :
    runSimulation U G L fuel o rng up = .ok out ∧
    ∃ o1 s0 l2 c, setupSimulator U L o rng up = .ok (o1, out.init, s0) ∧
      displayCurrentSettings v s0.cov = .ok l2 ∧
      verboseSimulator ⟨out.init.problem, G, L, runOpts out.init.opts o1.extra, fuel⟩ v out.init.opts.printint s0
        (message v 2 .priorNote ++ displayParameterSettings flags o1.specs v ++ l2) = .ok c ∧
      out.final = c.sim ∧ lines = c.lines := by
  have h' := h
  unfold runVerbose at h
  obtain ⟨⟨o1, I, s0⟩, h0, h⟩ := bind_ok.1 h
  dsimp only at h
  obtain ⟨l2, h2, h⟩ := bind_ok.1 h
  obtain ⟨c, h3, h⟩ := bind_ok.1 h
  obtain ⟨res, h4, h⟩ := bind_ok.1 h
  have h := Except.ok.inj h
  rw [Prod.mk.injEq] at h
  refine ⟨?_, o1, s0, l2, c, ?_, h2, ?_, ?_, h.2.symm⟩
  · rw [← runVerbose_run U G L fuel v o rng up, h']
    · rfl
    · intro a b d hs
      rw [h0] at hs
      cases hs
      exact ⟨_, h2⟩
  · rw [← h.1]; exact h0
  · rw [← h.1]; exact h3
  · rw [← h.1]

/-! ### Counts at the time of a report -/

theorem rejectedOutside_eq : (rejectedOutside : List (Try F n) → Bool) = RejectedOutside := rfl

theorem countsAt_spec {E : Env F σ N n m} {s s' : SimState F σ N n m} {i : ℕ} {p : Proposal F σ N n m}
    (h : RejInv i s) (hs : StepSpec E i s s' p) :
    (countsAt s p).total = s'.trace.countP Rejection ∧
    (countsAt s p).outside = s'.trace.countP RejectedOutside ∧
    (countsAt s p).inInterval = (s'.trace.drop (s.adaptedAt.getLast?.getD 0)).countP Rejection ∧
    s.iiadapt + 1 + s.adaptedAt.getLast?.getD 0 = i ∧ s'.trace.length = i := by
  have hr := propose_rejection hs.prop
  have ho := propose_outbound hs.prop
  have hl := h.len
  have hsi := h.since
  rw [← rejectedOutside_eq]
  refine ⟨?_, ?_, ?_, by omega, by rw [hs.trace]; simp; omega⟩
  · rw [hs.trace, List.countP_append, ← h.total]
    unfold countsAt
    cases ha : p.accept <;> simp [hr, ha]
  · rw [hs.trace, List.countP_append, ← h.outside]
    unfold countsAt
    cases ha : p.accept <;> cases hb : p.outbound <;> simp [rejectedOutside, hr, ha, ← ho, hb]
  · rw [hs.trace, List.drop_append_of_le_length (by omega), List.countP_append, ← h.interval]
    unfold countsAt
    cases ha : p.accept <;> simp [hr, ha]

theorem lastBefore_append_le {l k : List ℕ} {i : ℕ} (hk : ∀ a ∈ k, i ≤ a) :
    lastBefore (l ++ k) i = lastBefore l i := by
  unfold lastBefore
  have : k.filter (· < i) = [] := by
    rw [List.filter_eq_nil_iff]
    intro a ha
    simpa using hk a ha
  rw [List.filter_append, this, List.append_nil]

theorem lastBefore_all {l : List ℕ} {i : ℕ} (hl : ∀ a ∈ l, a < i) :
    lastBefore l i = l.getLast?.getD 0 := by
  unfold lastBefore
  rw [List.filter_eq_self.2]
  simpa using hl

/-- The three shares at a report. -/
theorem shares_at {E : Env F σ N n m} {s s' : SimState F σ N n m} {i : ℕ} {p : Proposal F σ N n m}
    (h : RejInv i s) (hs : StepSpec E i s s' p) :
    (percent (countsAt s p).total i : F) = totalShare s'.trace i ∧
    (percent (countsAt s p).inInterval (s.iiadapt + 1) : F) = intervalShare s'.trace s'.adaptedAt i ∧
    (percent (countsAt s p).outside i : F) = outsideShare s'.trace i ∧
    (countsAt s p).inInterval = ((s'.trace.take i).drop (lastBefore s'.adaptedAt i)).countP Rejection ∧
    s.iiadapt + 1 = i - lastBefore s'.adaptedAt i := by
  obtain ⟨h1, h2, h3, h4, h5⟩ := countsAt_spec h hs
  have hb : lastBefore s'.adaptedAt i = s.adaptedAt.getLast?.getD 0 := by
    rw [hs.adaptedAt, lastBefore_append_le, lastBefore_all h.sorted]
    intro a ha
    split at ha
    · simp only [List.mem_singleton] at ha; omega
    · cases ha
  have ht : s'.trace.take i = s'.trace := by rw [← h5, List.take_length]
  have h6 : s.iiadapt + 1 = i - lastBefore s'.adaptedAt i := by rw [hb]; omega
  refine ⟨?_, ?_, ?_, by rw [ht, hb]; exact h3, h6⟩
  · unfold totalShare percent percentage ofInt
    rw [ht, ← h1]; simp
  · unfold intervalShare percent percentage ofInt
    rw [ht, hb, ← h3, ← hb, ← h6]; simp
  · unfold outsideShare percent percentage ofInt
    rw [ht, ← h2]; simp

theorem shares_later {E : Env F σ N n m} {s s' : SimState F σ N n m} {i j : ℕ} {p : Proposal F σ N n m}
    (h : RejInv i s) (hs : StepSpec E i s s' p) (hj : j < i) :
    s'.trace.take j = s.trace.take j ∧ lastBefore s'.adaptedAt j = lastBefore s.adaptedAt j := by
  have hl := h.len
  refine ⟨by rw [hs.trace, List.take_append_of_le_length (by omega)], ?_⟩
  rw [hs.adaptedAt, lastBefore_append_le]
  intro a ha
  split at ha
  · simp only [List.mem_singleton] at ha; omega
  · cases ha

/-! ### The lines -/

theorem message_filterMap {v k : ℤ} {l : Line F} {α : Type} (f : Line F → Option α) (h : f l = none) :
    (message v k l).filterMap f = [] := by
  unfold message
  split <;> simp [h]

theorem message_filter {v k : ℤ} {l : Line F} (f : Line F → Bool) (h : f l = false) :
    (message v k l).filter f = [] := by
  unfold message
  split <;> simp [h]

theorem runAdaptationV_lines {L : Lapack F} {v : ℤ} {c c' : CovState F n} {o : AdaptOpts F} {i ii : ℕ}
    {rej : Rejected} {ch : List (Vec F n)} {k : ℕ} {u : Vec F n} {al : Option F} {l : List (Line F)}
    (h : runAdaptationV L v c o i ii rej ch k u al = .ok (c', l)) : ∀ x ∈ l, x.ofAdaptation = true := by
  have hm : ∀ (a : ℤ) (y : Line F), y.ofAdaptation = true → ∀ x ∈ message v a y, x.ofAdaptation = true := by
    intro a y hy x hx
    unfold message at hx
    split at hx
    · rw [List.mem_singleton.1 hx]; exact hy
    · cases hx
  unfold runAdaptationV at h
  split at h
  · have := congrArg Prod.snd (Except.ok.inj h)
    dsimp only at this
    rw [← this]
    unfold burninLines
    dsimp only
    split
    · exact hm _ _ rfl
    · split
      · exact hm _ _ rfl
      · simp
  · obtain ⟨⟨a, b, w⟩, _, h⟩ := bind_ok.1 h
    obtain ⟨up, _, h⟩ := bind_ok.1 h
    dsimp only at h
    obtain ⟨⟨x, y⟩, _, h⟩ := bind_ok.1 h
    have := congrArg Prod.snd (Except.ok.inj h)
    dsimp only at this
    rw [← this]
    intro z hz
    rcases List.mem_append.1 hz with hz | hz
    · exact hm _ _ rfl z hz
    · unfold checkForSingularV at hz
      split at hz
      · cases hz
      · split at hz
        · exact hm _ _ rfl z hz
        · exact hm _ _ rfl z hz

/-- Reports up to iteration `i`. -/
structure ProgInv (v : ℤ) (K : ℕ) (i : ℕ) (c : Console F σ N n m) : Prop where
  rej : RejInv i c.sim
  counter : c.iiprint = (i - 1) % K
  lines : c.lines.filterMap Line.report? = if 2 ≤ v then
    ((List.range' 1 (i - 1)).filter (K ∣ ·)).map fun j =>
      (j, totalShare c.sim.trace j, intervalShare c.sim.trace c.sim.adaptedAt j,
        outsideShare c.sim.trace j) else []

theorem printRejections_report {v : ℤ} {K ip i ii : ℕ} (hK : 0 < K) {rej : Rejected} {x : ℕ}
    {l : List (Line F)} (h : printRejections v (some K) ip i ii rej = (x, l)) :
    x = (if ip = K then 0 else ip) ∧ l.filterMap Line.report? = (if ip = K ∧ 2 ≤ v then
      [(i, percent rej.total i, percent rej.inInterval ii, percent rej.outside i)] else []) := by
  unfold printRejections at h
  dsimp only at h
  by_cases hk : ip = K
  · rw [if_pos ⟨by omega, by omega⟩, Prod.mk.injEq] at h
    rw [← h.1, ← h.2, if_pos hk]
    refine ⟨rfl, ?_⟩
    unfold message
    by_cases hv : 2 ≤ v
    · rw [if_pos hv, if_pos ⟨hk, hv⟩]; rfl
    · rw [if_neg hv, if_neg (fun hh => hv hh.2)]; rfl
  · rw [if_neg (fun hh => hk (by omega)), Prod.mk.injEq] at h
    rw [← h.1, ← h.2, if_neg hk, if_neg (fun hh => hk hh.1)]
    exact ⟨rfl, rfl⟩

theorem ofAdaptation_report {l : List (Line F)} (h : ∀ x ∈ l, x.ofAdaptation = true) :
    l.filterMap Line.report? = [] := by
  rw [List.filterMap_eq_nil_iff]
  intro x hx
  have := h x hx
  cases x <;> simp_all [Line.ofAdaptation, Line.report?]

theorem ProgInv.step {E : Env F σ N n m} {v : ℤ} {K : ℕ} (hK : 0 < K) {c c' : Console F σ N n m} {i : ℕ}
    (hi : 1 ≤ i) (h : ProgInv v K i c) (hs : verboseStep E v (some (K : ℤ)) c i = .ok c') :
    ProgInv v K (i + 1) c' := by
  obtain ⟨p, l2, l3, hp, hpr, hl, hl3⟩ := verboseStep_ok hs
  obtain ⟨e1, e2⟩ := printRejections_report hK hpr
  obtain ⟨s1, s2, s3, _, _⟩ := shares_at h.rej hp
  have hip : (c.iiprint + 1 = K ↔ K ∣ i) ∧ c'.iiprint = i % K := by
    rw [e1, h.counter]
    have h1 : (i - 1) % K < K := Nat.mod_lt _ hK
    have h2 : i % K = ((i - 1) % K + 1) % K := by
      conv_lhs => rw [show i = (i - 1) + 1 by omega]
      rw [Nat.mod_add_mod]
    by_cases hh : (i - 1) % K + 1 = K
    · have : i % K = 0 := by rw [h2, hh, Nat.mod_self]
      rw [if_pos hh, this]
      exact ⟨⟨fun _ => Nat.dvd_of_mod_eq_zero this, fun _ => hh⟩, rfl⟩
    · have h3 : i % K = (i - 1) % K + 1 := by rw [h2, Nat.mod_eq_of_lt (by omega)]
      rw [if_neg hh, h3]
      refine ⟨⟨fun q => absurd q hh, fun q => ?_⟩, rfl⟩
      have := Nat.mod_eq_zero_of_dvd q
      omega
  have hl3' : l3.filterMap Line.report? = [] := by
    split at hl3
    · exact ofAdaptation_report (runAdaptationV_lines hl3)
    · rw [hl3]; rfl
  refine ⟨h.rej.step hp, by rw [hip.2]; rfl, ?_⟩
  rw [hl, List.filterMap_append, List.filterMap_append, List.filterMap_append, h.lines, e2, hl3',
    message_filterMap _ rfl, List.nil_append, List.append_nil]
  by_cases hv : 2 ≤ v
  · rw [if_pos hv, if_pos hv, show i + 1 - 1 = (i - 1) + 1 by omega, List.range'_concat,
      List.filter_append, List.map_append]
    congr 1
    · refine List.map_congr_left fun j hj => ?_
      have hj' := (List.mem_filter.1 hj).1
      rw [List.mem_range'_1] at hj'
      obtain ⟨t1, t2⟩ := shares_later h.rej hp (j := j) (by omega)
      unfold totalShare intervalShare outsideShare
      rw [t1, t2]
    · rw [show 1 + 1 * (i - 1) = i by omega]
      by_cases hd : K ∣ i
      · rw [if_pos ⟨hip.1.2 hd, hv⟩, s1, s2, s3]
        simp [hd]
      · rw [if_neg (fun hh => hd (hip.1.1 hh.1))]
        simp [hd]
  · rw [if_neg hv, if_neg hv, if_neg (fun hh => hv hh.2)]; rfl

/-- Without a print interval, or with one that is not positive, there are no reports. -/
theorem printRejections_none {v : ℤ} {k : Option ℤ} (hk : ∀ K, k = some K → K ≤ 0) {ip i ii : ℕ}
    (hip : 0 < ip) {rej : Rejected} :
    printRejections v k ip i ii rej = ((ip, []) : ℕ × List (Line F)) := by
  unfold printRejections
  cases k with
  | none => rfl
  | some K =>
    have := hk K rfl
    dsimp only
    rw [if_neg (by omega)]

/-! ### The lines about adaptations -/

theorem lit_ofInt (a : ℕ) : (ofInt (a : ℤ) : F) = lit (a : ℚ) := by
  unfold ofInt
  simp

theorem normSq_eq (u : Vec F n) : normSq u = vsum fun l => u l * u l := rfl

theorem reported_of_run {E : Env F σ N n m} {v : ℤ} {s s' : SimState F σ N n m} {i : ℕ}
    {p : Proposal F σ N n m} (hR : RejInv i s) (hs : StepSpec E i s s' p) {l : List (Line F)}
    (h : runAdaptationV E.lapack v s.cov E.opts.toAdaptOpts i (s.iiadapt + 1) (countsAt s p)
      s'.chain (s.chainIndex + 1) p.u p.newSet.alpha = .ok (s'.cov, l)) :
    Reported E.lapack E.opts.burnintime E.opts.burninScale E.opts.qcovAdjust E.opts.etaparam
      E.opts.alphatarget E.opts.doram v s'.trace s'.adaptedAt
      ⟨i, s.cov, s'.cov, p.u, p.newSet.alpha⟩ l := by
  obtain ⟨s1, s2, s3, s4, s5⟩ := shares_at hR hs
  unfold Reported
  unfold runAdaptationV at h
  split at h
  · rename_i hb
    rw [if_pos hb]
    have h := Except.ok.inj h
    rw [Prod.mk.injEq] at h
    obtain ⟨h1, h2⟩ := h
    have h1 := congrArg CovState.R h1
    dsimp only at h1 ⊢
    unfold burninLines message at h2
    unfold belowBurninThreshold at h1
    dsimp only at h1 h2
    rw [lit_ofInt, lit_ofInt, s4, s5] at h1
    rw [s2, lit_ofInt, lit_ofInt, s4, s5] at h2
    split
    · rename_i hc
      rw [if_pos hc] at h1 h2
      exact ⟨fun a b => by rw [← h1]; rfl, h2.symm⟩
    · rename_i hc
      rw [if_neg hc] at h1 h2
      split
      · rename_i hd
        rw [if_pos hd] at h1 h2
        exact ⟨fun a b => by rw [← h1]; rfl, h2.symm⟩
      · rename_i hd
        rw [if_neg hd] at h1 h2
        exact ⟨h1.symm, h2.symm⟩
  · rename_i hb
    rw [if_neg hb]
    obtain ⟨⟨a, b, w⟩, _, h⟩ := bind_ok.1 h
    obtain ⟨up, hup, h⟩ := bind_ok.1 h
    dsimp only at h
    obtain ⟨⟨x, y⟩, _, h⟩ := bind_ok.1 h
    have h := Except.ok.inj h
    rw [Prod.mk.injEq] at h
    obtain ⟨h1, h2⟩ := h
    have hcc := congrArg CovState.covchain h1
    have h1 := congrArg CovState.R h1
    dsimp only at h1 h2 hcc
    refine ⟨up, (checkForSingularV E.lapack v up s.cov.R E.opts.qcovAdjust s.cov.qcovScale (countsAt s p)
      (s.iiadapt + 1)).2, ?_, ?_, ?_⟩
    · unfold newCovariance at hup
      constructor
      · intro hd
        rw [hd] at hup
        simp only [Bool.false_eq_true, if_false] at hup
        obtain ⟨cc, h5, h6⟩ := bind_ok.1 hup
        rw [orRaise_ok] at h5
        refine ⟨cc, by dsimp only; rw [← hcc, h5], ?_⟩
        rw [← Except.ok.inj h6]
        intro q r
        unfold updateCovFromCovchain
        dsimp only
        cases s.cov.noAdapt q <;> cases s.cov.noAdapt r <;> simp
      · intro hd
        rw [hd] at hup
        simp only [if_true] at hup
        obtain ⟨al, h5, h6⟩ := bind_ok.1 hup
        rw [orRaise_ok] at h5
        refine ⟨al, h5, ?_⟩
        rw [← Except.ok.inj h6]
        intro q r
        dsimp only
        unfold updateCovViaRam
        rw [lit_ofInt]
        rfl
    · rw [← h2, s1, s2, s3]; rfl
    · unfold checkForSingularV isSemiPosDefChol at h1 ⊢
      dsimp only
      cases h3 : E.lapack.cholesky up with
      | some A =>
        rw [h3] at h1
        exact .inl ⟨A, rfl, fun q r => by rw [← h1]; rfl, rfl⟩
      | none =>
        rw [h3] at h1
        refine .inr ?_
        have e : (fun i j => up i j + (if i = j then lit 1 else lit 0) * E.opts.qcovAdjust) =
          matAdd up (matScale matEye E.opts.qcovAdjust) := rfl
        simp only [Option.map_none, e] at h1 ⊢
        cases h4 : E.lapack.cholesky (matAdd up (matScale matEye E.opts.qcovAdjust)) with
        | some A =>
          rw [h4] at h1
          exact .inl ⟨trivial, A, rfl, fun q r => by rw [← h1]; rfl, rfl⟩
        | none =>
          rw [h4] at h1
          refine .inr ⟨trivial, rfl, h1.symm, ?_⟩
          unfold message
          simp only [Option.map_none]
          rw [s2]

/-- Lines about adaptations up to iteration `i`. -/
structure AdaptLinesInv (E : Env F σ N n m) (v : ℤ) (i : ℕ) (c : Console F σ N n m) : Prop where
  rej : RejInv i c.sim
  at_ : ∀ r ∈ c.sim.adaptLog, r.at_ < i
  lines : ∃ ls : List (List (Line F)), c.lines.filter Line.ofAdaptation = ls.flatten ∧
    List.Forall₂ (fun r l => Reported E.lapack E.opts.burnintime E.opts.burninScale E.opts.qcovAdjust
      E.opts.etaparam E.opts.alphatarget E.opts.doram v c.sim.trace c.sim.adaptedAt r l) c.sim.adaptLog ls

theorem Reported.congr {L : Lapack F} {bt : ℤ} {bs qa et ta : F} {dr : Bool} {v : ℤ}
    {t t' : List (List (Try F n))} {a a' : List ℕ} {r : AdaptRecord F n} {l : List (Line F)}
    (h1 : t'.take r.at_ = t.take r.at_) (h2 : lastBefore a' r.at_ = lastBefore a r.at_)
    (h : Reported L bt bs qa et ta dr v t a r l) : Reported L bt bs qa et ta dr v t' a' r l := by
  unfold Reported totalShare intervalShare outsideShare at h ⊢
  rw [h1, h2]
  exact h

theorem AdaptLinesInv.step {E : Env F σ N n m} {v : ℤ} {k : Option ℤ} {c c' : Console F σ N n m} {i : ℕ}
    (h : AdaptLinesInv E v i c) (hs : verboseStep E v k c i = .ok c') : AdaptLinesInv E v (i + 1) c' := by
  obtain ⟨p, l2, l3, hp, hpr, hl, hl3⟩ := verboseStep_ok hs
  obtain ⟨ls, e1, e2⟩ := h.lines
  have h2 : l2.filter Line.ofAdaptation = [] := by
    unfold printRejections at hpr
    split at hpr
    · have := congrArg Prod.snd hpr; dsimp only at this; rw [← this]; rfl
    · split at hpr
      · have := congrArg Prod.snd hpr; dsimp only at this; rw [← this]; exact message_filter _ rfl
      · have := congrArg Prod.snd hpr; dsimp only at this; rw [← this]; rfl
  have hold : List.Forall₂ (fun r l => Reported E.lapack E.opts.burnintime E.opts.burninScale E.opts.qcovAdjust
      E.opts.etaparam E.opts.alphatarget E.opts.doram v c'.sim.trace c'.sim.adaptedAt r l) c.sim.adaptLog ls := by
    have hat := h.at_
    clear e1
    generalize c.sim.adaptLog = A at e2 hat
    induction e2 with
    | nil => exact .nil
    | cons q _ ih =>
      refine .cons ?_ (ih fun r hr => hat r (by simp [hr]))
      obtain ⟨t1, t2⟩ := shares_later h.rej hp (hat _ List.mem_cons_self)
      exact q.congr t1 t2
  refine ⟨h.rej.step hp, ?_, ?_⟩
  · intro r hr
    rw [hp.adaptLog] at hr
    rcases List.mem_append.1 hr with hr | hr
    · have := h.at_ r hr; omega
    · split at hr
      · rw [List.mem_singleton.1 hr]; dsimp only; omega
      · cases hr
  · rw [hl, List.filter_append, List.filter_append, List.filter_append, e1, h2, message_filter _ rfl,
      List.nil_append, List.nil_append, hp.adaptLog]
    split at hl3
    · rename_i hn
      rw [if_pos hn]
      refine ⟨ls ++ [l3], ?_, ?_⟩
      · rw [List.flatten_append, List.filter_eq_self.2 (runAdaptationV_lines hl3)]; simp
      · exact List.rel_append hold (.cons (reported_of_run h.rej hp hl3) .nil)
    · rename_i hn
      rw [if_neg hn, hl3]
      exact ⟨ls, by simp, by simpa using hold⟩

end Verif
