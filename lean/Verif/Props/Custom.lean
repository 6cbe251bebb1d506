import Verif.Lemmas.CustomLogs
import Verif.Spec.Toy

/-! # Properties of runs with custom samplers (C100 – C103) -/

set_option linter.unusedSectionVars false

namespace Verif
variable {F σ κ V : Type} [PyFloat F] {N m : ℕ} {flags : Fin N → Bool}

/-- the record of a completed run with custom samplers -/
theorem custom_record {U : CustomFuns F V N (nS flags) m} {G : Rng σ F} {L : Lapack F} {fuel : ℕ}
    {cs : Samplers F σ κ V (nS flags) m} {o : Obj F flags m} {rng : σ} {up : Bool}
    {out : CustomOut F σ κ V flags m} (h : runCustom U G L fuel cs o rng up = .ok out) :
    ∃ (nsim b : ℕ) (K : ℕ → List κ) (O : ℕ → List V) (Γ : ℕ → List σ) (o1 : Obj F flags m),
      (nsim : ℤ) = o.opts.nsimu ∧ 2 ≤ nsim ∧ (up = false → b = 0) ∧
      b + nsim = out.run.obj.chainIndex + 1 ∧ Protocol cs out nsim b K O Γ ∧
      SameSpecs flags o.specs o1.specs ∧ InitSpec (U.given none) o1 rng out.run.init ∧
      (∀ i, 1 ≤ i → i < nsim → IterOk U out.run.init.problem G o.opts.ntry.toNat out.run.init.world.value cs
        (up = false) b K O Γ i out.run.final) ∧
      (up = false → out.run.results.chain[0]? = some out.run.init.initialSet.theta ∧
        out.run.results.sschain[0]? = some out.run.init.initialSet.ss) ∧
      out.run.results.chain = out.run.final.chain ∧
      out.run.results.sschain = out.run.final.sschain ∧
      (up = false → o.extra.jsonRestart = none → o1 = o) := by
  obtain ⟨o1, I, s0, vs, cs1, g, h1, h2, h3, h4, rfl, h6⟩ := runCustom_ok h
  obtain ⟨gs, hpass⟩ := setupAll_ok h2
  obtain ⟨_, _, _, _, _, r1, r2, r3, _⟩ := generateResults_ok h4
  have key : StartSpec (U.given none) o o1 rng out.run.init s0 ∧
      (up = false → s0.chainIndex = 0 ∧ s0.chain[s0.chainIndex]? = some s0.oldSet.theta ∧
        s0.sschain[s0.chainIndex]? = some s0.oldSet.ss) ∧ 0 < out.run.init.opts.nsimu ∧
      (out.run.init.opts.updatesigma = false → s0.s2chain = none) ∧
      (up = false → o.extra.jsonRestart = none → o1 = o) := by
    cases up with
    | false =>
      obtain ⟨hst, hpos, hci, hch, hsc, hs2, _, hsame, _⟩ := setup_fresh h1
      have hp : 0 < out.run.init.opts.nsimu.toNat := by omega
      refine ⟨hst, fun _ => ⟨hci, ?_, ?_⟩, hpos, fun hu => by rw [hs2, hu]; rfl, fun _ => hsame⟩
      · rw [hch, hci, hst.oldSet, List.getElem?_set_self (by simpa [zeroRows] using hp)]
      · rw [hsc, hci, hst.oldSet, List.getElem?_set_self (by simpa [zeroRows] using hp)]
    | true =>
      obtain ⟨hst, hpos, hci, hch, hsc, hs2, _⟩ := setup_continue h1
      exact ⟨hst, by simp, hpos, fun hu => by rw [hs2, hu]; rfl, by simp⟩
  obtain ⟨hst, hfresh, hpos, hs2, hrestart⟩ := key
  have hopt : out.run.init.opts.nsimu = o.opts.nsimu := by rw [hst.init.opts, ← hst.opts]; rfl
  obtain ⟨hn, c1, ⟨K, O, Γ, hP, hpre⟩, hfin, hsam, hout, -⟩ := customSimulator_inv
    (P := fun i c => ∃ K O Γ, CustomInv U
      ⟨out.run.init.problem, G, L, runOpts out.run.init.opts o1.extra, fuel⟩ cs (up = false)
      (withRng s0 g) K O Γ i c ∧ (s0.chainIndex = 0 → c.sim.chain[0]? = s0.chain[0]? ∧
        c.sim.sschain[0]? = s0.sschain[0]?))
    ⟨fun _ => cs1.map Prod.snd, fun _ => vs, fun _ => gs, by
      refine ⟨rfl, ?_, ?_, fun hh => ?_, fun hh => ?_, fun _ _ => rfl, hs2, hpass.same, rfl, rfl, hpass.last,
        fun _ _ => ⟨?_, hpass.len, hpass.lenG⟩, ?_, ?_⟩
      · simp [loopStart, withRng, hst.trace]
      · simp [loopStart, withRng, hst.moveLog]
      · exact (hfresh (hh.resolve_left (by omega))).2.1
      · exact (hfresh (hh.resolve_left (by omega))).2.2
      · simpa using congrArg List.length hpass.same
      · intro j c k hj
        obtain ⟨v, k', a, b, b1, b2, b3, b4, b5⟩ := hpass.calls j c k hj
        exact ⟨v, k', a, b, b1, getElem?_map_snd b2, b3, b4, b5⟩
      · intro t ht1 ht; omega, fun _ => ⟨rfl, rfl⟩⟩
    (fun i c c' s' p g' hi _ ⟨K, O, Γ, hP, hpre⟩ hs => by
      obtain ⟨K', O', Γ', hP'⟩ := hP.step hi hs
      refine ⟨K', O', Γ', hP', fun h0 => ?_⟩
      have := hP.idx
      rw [hs.sim]
      exact ⟨by rw [show (withRng s' g').chain = s'.chain from rfl, hs.step.chain,
          List.getElem?_set_ne (by omega)]; exact (hpre h0).1,
        by rw [show (withRng s' g').sschain = s'.sschain from rfl, hs.step.sschain,
          List.getElem?_set_ne (by omega)]; exact (hpre h0).2⟩) h3
  dsimp only at hn hfin hP hsam hout
  have hN : (runOpts out.run.init.opts o1.extra).nsimu = out.run.init.opts.nsimu.toNat := rfl
  rw [hN] at hn hP
  have hidx := hP.idx
  have hiter : ∀ i, 1 ≤ i → i < out.run.init.opts.nsimu.toNat → IterOk U out.run.init.problem G
      o.opts.ntry.toNat out.run.init.world.value cs (up = false) s0.chainIndex K O Γ i out.run.final := by
    intro i hi hi'
    have := hP.iters i hi hi'
    rw [show (withRng s0 g).world.value = out.run.init.world.value by
      rw [← hst.world]; rfl] at this
    have hnt : (runOpts out.run.init.opts o1.extra).ntry = o.opts.ntry.toNat := by
      change out.run.init.opts.ntry.toNat = _
      rw [hst.init.opts, hst.opts]; rfl
    rw [hfin, ← hnt]
    exact this
  refine ⟨out.run.init.opts.nsimu.toNat, s0.chainIndex, K, O, Γ, o1, by omega, by omega,
    fun hu => (hfresh hu).1, ?_, ?_, hst.same, hst.init, hiter, fun hu => ?_, r1, r2, hrestart⟩
  · rw [h6, hfin]
    exact hidx.symm
  · refine ⟨hP.lens, hP.setup, ?_, ?_, ?_, ?_⟩
    · intro i hi hi'
      obtain ⟨ts, cur, mv, a1, a2, a3, a4, _, _, _, _, _, _, a5⟩ := hiter i hi hi'
      rw [r1, r2, r3]
      exact ⟨ts, cur, a1, a2, a3, a4, a5⟩
    · intro i hi
      obtain ⟨ts, cur, mv, _, _, _, _, _, a1, a2, _⟩ := hiter (i + 1) (by omega) hi
      exact ⟨mv, by simpa using a1, by simpa using a2⟩
    · rw [hsam, ← hP.fst, ← hP.snd, List.zip_map', List.map_id']
    · rw [hout, hP.output]
  · obtain ⟨f1, f2, f3⟩ := hfresh hu
    obtain ⟨p1, p2⟩ := hpre f1
    rw [f1] at f2 f3
    rw [r1, r2, hfin]
    dsimp only
    rw [p1, p2, f2, f3, hst.oldSet]
    exact ⟨rfl, rfl⟩

/-! ### C100 -/

/-- **C100.** In a completed run with custom samplers, started from scratch or continued, every sampler
is set up once and then updated exactly once in each of the iterations `1 … nsimu - 1`, in the order
of the list: from the state its last call left, with the decision of that iteration (accepted or
not), its number, and the parameter set, sums of squares and error variances that the iteration
entered in the chains; the generator passes from the iteration through the samplers to the next
iteration, and the run ends with the samplers and outputs of its last iteration (`Protocol`).  The
rows of the run are the last `nsimu` rows of the chain, for a run from scratch all of it. -/
theorem C100_custom_protocol {U : CustomFuns F V N (nS flags) m} {G : Rng σ F} {L : Lapack F}
    {fuel : ℕ} {cs : Samplers F σ κ V (nS flags) m} {o : Obj F flags m} {rng : σ} {up : Bool}
    {out : CustomOut F σ κ V flags m} (h : runCustom U G L fuel cs o rng up = .ok out) :
    ∃ (nsim b : ℕ) (K : ℕ → List κ) (O : ℕ → List V) (Γ : ℕ → List σ),
      (nsim : ℤ) = o.opts.nsimu ∧ 2 ≤ nsim ∧ b + nsim = out.run.obj.chainIndex + 1 ∧
      (up = false → b = 0) ∧ Protocol cs out nsim b K O Γ := by
  obtain ⟨nsim, b, K, O, Γ, o1, h1, h2, h3, h4, h5, -⟩ := custom_record h
  exact ⟨nsim, b, K, O, Γ, h1, h2, h4, h3, h5⟩

end Verif

namespace Verif.Toy

/-- a sampler that returns 1, 1/2, 1/3, … and keeps what it returned in a preallocated array -/
def counter : CustomSampler ℚ ℕ (List ℚ) ℚ (nS flags) 1 where
  setup k g := .ok (1, k.set 0 1, g)
  update k _ i _ g := .ok (1 / (i + 1), k.set i (1 / (i + 1)), g)
  saveChain _ := true
  chains k := [("tau", k.map fun x => [x])]

/-- a sampler that draws from the generator and does not save its chain -/
def drawer : CustomSampler ℚ ℕ (List ℚ) ℚ (nS flags) 1 where
  setup k g := .ok ((rng.rand g).1, k, (rng.rand g).2)
  update k acc _ cur g := .ok (if acc then cur.ss 0 else (rng.rand g).1, k, (rng.rand g).2)
  saveChain _ := false
  chains _ := []

/-- the sum of squares, weighted with the output of the first sampler -/
def customUser : CustomFuns ℚ ℚ 3 (nS flags) 1 where
  style1 := true
  sosFun
    | .custom (some (t :: _)), v => .ok fun _ => t * (v 0 * v 0 + v 1 * v 1 + v 2 * v 2)
    | _, v => .ok fun _ => v 0 * v 0 + v 1 * v 1 + v 2 * v 2
  priorFun _ _ _ := 0

def customRun : Except PyErr (CustomOut ℚ ℕ (List ℚ) ℚ flags 1) :=
  runCustom customUser rng lapack 100 [(counter, List.replicate 6 0), (drawer, [])]
    (obj .dram 6) 0 false

end Verif.Toy

namespace Verif
variable {F σ κ V : Type} [PyFloat F] {N m : ℕ} {flags : Fin N → Bool}

/-- two samplers, the second of which draws from the generator -/
example : ∃ out, Toy.customRun = .ok out ∧ out.samplers.length = 2 ∧ out.output.length = 2 ∧
    out.run.obj.chainIndex = 5 := by
  obtain ⟨out, h⟩ := exists_ok (x := Toy.customRun) (by decide +kernel)
  obtain ⟨nsim, b, K, O, Γ, h1, h2, h3, h4, h5⟩ := C100_custom_protocol h
  have hn : nsim = 6 := by
    have e : (Toy.obj .dram 6).opts.nsimu = 6 := by decide +kernel
    rw [e] at h1; exact_mod_cast h1
  obtain ⟨e1, e2, _⟩ := h5.lengths (nsim - 1) (by omega)
  refine ⟨out, h, ?_, ?_, ?_⟩
  · rw [h5.samplers]; simp [e1]
  · rw [h5.output]; simp [e2]
  · have := h4 rfl; omega

/-! ### C101 -/

/-- **C101**, what holds.  In a completed run from scratch with custom samplers, row 0 of the
sum-of-squares chain is the value of the user's function at the initial point with `custom=None`.  All
proposals of iteration `i` are those of `Iteration`, with the user's limits and prior, and with the value of
the user's function given the outputs of iteration `i - 1`; they are compared with the sum of squares in the
row before.  If none is accepted the row repeats the one before together with its sum of squares, unchanged;
otherwise it is the accepted proposal, within the limits, with the value of the user's function there, given
the outputs of the iteration before.  (Missing: the value compared with should have been computed with the
outputs the proposals are computed with, see `C101_stale_refuted`.) -/
theorem C101_sums_of_squares_partial {U : CustomFuns F V N (nS flags) m} {G : Rng σ F} {L : Lapack F}
    {fuel : ℕ} {cs : Samplers F σ κ V (nS flags) m} {o : Obj F flags m}
    {rng : σ} {out : CustomOut F σ κ V flags m}
    (h : runCustom U G L fuel cs o rng false = .ok out) :
    ∃ (nsim : ℕ) (K : ℕ → List κ) (O : ℕ → List V) (Γ : ℕ → List σ) (mu sigma : Vec F (nS flags)),
      (nsim : ℤ) = o.opts.nsimu ∧ Protocol cs out nsim 0 K O Γ ∧
      (o.extra.jsonRestart = none → UserPrior flags o.specs mu sigma) ∧
      (∃ row ss, out.run.results.chain[0]? = some row ∧ out.run.results.sschain[0]? = some ss ∧
        InLimits flags o.specs row ∧ SosThereGiven U o.specs none row ss) ∧
      ∀ i, 1 ≤ i → i < nsim → ∃ ts prev pss row ss r,
        out.run.final.trace[i - 1]? = some ts ∧
        out.run.results.chain[i - 1]? = some prev ∧ out.run.results.sschain[i - 1]? = some pss ∧
        out.run.results.chain[i]? = some row ∧ out.run.results.sschain[i]? = some ss ∧
        out.run.final.moveLog[i - 1]? = some r ∧ r.before.theta = prev ∧ r.before.ss = pss ∧
        Iteration (InLimits flags o.specs) (SosThereGiven U o.specs (some (O (i - 1))))
          (fun th => U.priorFun th mu sigma) G r.before r.R r.RDR r.invR o.opts.ntry.toNat r.rng ts
          r.rngAfter ∧
        Move prev row ts ∧ (Rejection ts = true → ss = pss) ∧
        (Rejection ts = false → InLimits flags o.specs row ∧
          SosThereGiven U o.specs (some (O (i - 1))) row ss) := by
  obtain ⟨nsim, b, K, O, Γ, o1, h1, h2, h3, h4, h5, hsame, hinit, hiter, h0, r1, r2, hrestart⟩ :=
    custom_record h
  obtain rfl := h3 rfl
  refine ⟨nsim, K, O, Γ,
    atParind flags fun k => setupPriorMu (o1.specs k).priorMu (o1.specs k).theta0,
    atParind flags fun k => setupPriorSigma (o1.specs k).priorSigma, h1, h5, fun hj => ?_, ?_, ?_⟩
  rotate_left
  · obtain ⟨e1, e2⟩ := h0 rfl
    obtain ⟨g1, v, g2, g3⟩ := RowGood.same hsame (rowGood_of_rowOk hinit (initSet_rowOk hinit))
    exact ⟨_, _, e1, e2, g1, v, g2, g3⟩
  · intro i hi hi'
    obtain ⟨ts, cur, mv, a1, a2, a3, a4, a5, a6, a7, a8, a10, a11, a9⟩ := hiter i hi hi'
    simp only [Nat.zero_add] at a2 a3 a4 a5
    obtain ⟨b1, b2⟩ := a5 (.inr (by trivial))
    rw [r1, r2]
    refine ⟨ts, _, _, _, _, mv, a1, b1, b2, a2, a3, a6, rfl, rfl, ?_, a11, fun hr => ?_, fun hr => ?_⟩
    · refine a10.congr (fun t => ?_) (fun t ss hin hs => ?_) hinit.priorFun
      · unfold InsideOf
        rw [hinit.lower, hinit.upper]
        constructor
        · intro hout i k hk
          have := inLimits_of hout i k hk
          rwa [hsame.minimum, hsame.maximum] at this
        · intro hin
          rw [isOutside_eq_false]
          intro i
          have := hin i (parindOf flags i) (List.getElem?_eq_getElem _)
          unfold atParind
          dsimp only
          rw [hsame.minimum, hsame.maximum]
          exact this
      · obtain ⟨val, d1, d2⟩ := hs
        dsimp only at d1 d2
        rw [hinit.parind] at d1 d2
        rw [hinit.style1] at d2
        refine ⟨_, belongsTo_of (v := writeAt (parindOf flags) t val)
          (fun i => writeAt_sampled (parindOf_injective flags) i) (fun k hk => ?_), d2⟩
        rw [writeAt_fixed (not_parindOf hk), d1 k (not_parindOf hk), hinit.value, hsame.fixed k hk]
    · rcases a8 with ⟨_, c1, c2⟩ | ⟨c0, _⟩
      · exact c2
      · rw [hr] at c0; cases c0
    · rcases a8 with ⟨c0, _⟩ | ⟨_, c1, v, c2, c3⟩
      · rw [hr] at c0; cases c0
      · rw [hinit.lower, hinit.upper] at c1
        rw [hinit.parind] at c2 c3
        rw [hinit.style1] at c3
        have hg : RowGood (U.given (some (O (i - 1)))) o1.specs cur.theta cur.ss := by
          refine ⟨inLimits_of c1, _, belongsTo_of (fun i => ?_) (fun k hk => ?_), c3⟩
          · exact writeAt_sampled (parindOf_injective flags) i
          · rw [writeAt_fixed (not_parindOf hk), c2 k (not_parindOf hk), hinit.value]
        obtain ⟨g1, v', g2, g3⟩ := RowGood.same hsame hg
        exact ⟨g1, v', g2, g3⟩
  · obtain rfl := hrestart rfl hj
    intro i k hk
    have hik : parindOf flags i = k := by
      obtain ⟨_, hk⟩ := List.getElem?_eq_some_iff.1 hk
      exact hk
    unfold atParind
    dsimp only
    rw [hik]
    refine ⟨⟨fun hp => ?_, fun hp => ?_⟩, fun hb hl => ?_, fun hb => ?_⟩
    · unfold setupPriorMu
      rw [if_neg (by rw [hp]; simp)]
    · unfold setupPriorMu
      rw [if_pos hp]
    · unfold setupPriorSigma
      dsimp only
      have e : (if PyFloat.beq (o1.specs k).priorSigma (lit 0) = true then PyFloat.inf
          else (o1.specs k).priorSigma) = (o1.specs k).priorSigma := if_neg (by rw [hb]; simp)
      rw [e, if_neg (by rw [hl]; simp)]
    · unfold setupPriorSigma
      dsimp only
      by_cases hb' : PyFloat.beq (o1.specs k).priorSigma (lit 0) = true
      · simp only [if_pos hb', ite_self]
      · rcases hb with hb | hb
        · exact absurd hb hb'
        · simp only [if_neg hb', if_pos hb]

/-- **C101** is false as stated: in a run with a custom sampler whose output the user's function
uses, iteration 2 compares its proposals, computed with the output of iteration 1, with a sum of
squares of the current point that was computed without it (at the start, with `custom=None`) and
is not the value of the function at the current point for the present output. -/
theorem C101_stale_refuted : ∃ out, Toy.customRun = .ok out ∧
    ∀ (K : ℕ → List (List ℚ)) (O : ℕ → List ℚ) (Γ : ℕ → List ℕ),
      Protocol [(Toy.counter, List.replicate 6 0), (Toy.drawer, [])] out 6 0 K O Γ →
      ∃ r, out.run.final.moveLog[1]? = some r ∧
        ∀ v, BelongsTo Toy.flags Toy.specs r.before.theta v →
          ¬ SosValueGiven Toy.customUser (some (O 1)) v r.before.ss := by
  obtain ⟨out, h, hp⟩ := exists_ok_and (x := Toy.customRun)
    (fun out => decide (out.run.final.moveLog[1]?.map (fun (r : MoveRecord ℚ ℕ (nS Toy.flags) 1) =>
      (List.ofFn r.before.theta, r.before.ss 0)) = some ([1, 2], 54))) (by decide +kernel)
  refine ⟨out, h, fun K O Γ hP => ?_⟩
  rw [decide_eq_true_eq, Option.map_eq_some_iff] at hp
  obtain ⟨r, hr, hp⟩ := hp
  simp only [Prod.mk.injEq] at hp
  obtain ⟨hth, hss⟩ := hp
  refine ⟨r, hr, fun v hv hs => ?_⟩
  obtain ⟨ts, cur, _, _, _, _, hu⟩ := hP.update 1 (by omega) (by omega)
  obtain ⟨k, w, k', a, g, _, hO, _, _, _, he⟩ := hu 0 Toy.counter (List.replicate 6 0) rfl
  have hw : w = 1 / 2 := by
    have : (1 / (((1 : ℕ) : ℚ) + 1)) = w := congrArg Prod.fst (Except.ok.inj he)
    rw [← this]; norm_num
  subst hw
  obtain ⟨rest, hrest⟩ : ∃ rest, O 1 = 1 / 2 :: rest := by
    cases hl : O 1 with
    | nil => rw [hl] at hO; cases hO
    | cons x l => rw [hl] at hO; cases hO; exact ⟨l, rfl⟩
  obtain ⟨hv1, hv2⟩ := hv
  rw [hth] at hv1
  have hb : v 1 = 7 := hv2 1 rfl
  have ha : [v 0, v 2] = [1, 2] := hv1
  simp only [List.cons.injEq, and_true] at ha
  rw [hrest] at hs
  have h3 : (fun _ => 1 / 2 * (v 0 * v 0 + v 1 * v 1 + v 2 * v 2) : Vec ℚ 1) = r.before.ss := by
    rcases hs with hs | ⟨hs, _⟩
    · exact Except.ok.inj hs
    · cases hs
  have h4 := congrFun h3 0
  rw [hss, ha.1, ha.2, hb] at h4
  norm_num at h4

/-- the run of the example repeats and moves -/
example : Toy.customRun.toOption.map (fun o => o.run.results.chain.map List.ofFn) =
    some [[1, 2], [1, 2], [-1, 3], [-2, 4], [-7/5, 19/5], [-2/5, 9/5]] := by decide +kernel

example : ∃ out, Toy.customRun = .ok out ∧
    ∀ row, out.run.results.chain[3]? = some row → InLimits Toy.flags Toy.specs row := by
  obtain ⟨out, h, hp⟩ := exists_ok_and (x := Toy.customRun)
    (fun out => decide (out.run.final.trace[2]?.map Rejection = some false)) (by decide +kernel)
  refine ⟨out, h, fun row hrow => ?_⟩
  obtain ⟨nsim, K, O, Γ, mu, sigma, h1, h2, -, h3, h4⟩ := C101_sums_of_squares_partial h
  have hn : nsim = 6 := by
    have e : (Toy.obj .dram 6).opts.nsimu = 6 := by decide +kernel
    rw [e] at h1; exact_mod_cast h1
  obtain ⟨ts, prev, pss, row', ss, r, a1, _, _, a4, _, _, _, _, _, _, _, a10⟩ :=
    h4 3 (by omega) (by omega)
  rw [decide_eq_true_eq] at hp
  have hts : Rejection ts = false := by simpa [a1] using hp
  rw [hrow] at a4
  cases a4
  exact (a10 hts).1

/-! ### C102 -/

/-- **C102.** If a custom sampler asks for its chain to be saved and its update in iteration `i` leaves
the rows before row `i` of its arrays (and the names of the files) as they are, then what is saved
for it in a completed run are the same ranges of rows as for the main chains, and in the file of each
of its arrays the saved blocks make up, in order and without gap or overlap, exactly the first
`nsimu` rows of the array as it is at the end. -/
theorem C102_custom_chains_saved {U : CustomFuns F V N (nS flags) m} {G : Rng σ F} {L : Lapack F}
    {fuel : ℕ} {cs : Samplers F σ κ V (nS flags) m} {o : Obj F flags m} {rng : σ} {up : Bool}
    {out : CustomOut F σ κ V flags m} (h : runCustom U G L fuel cs o rng up = .ok out)
    {j : ℕ} {c : CustomSampler F σ κ V (nS flags) m} {k0 : κ} (hj : cs[j]? = some (c, k0))
    (hsave : ∀ k, c.saveChain k = true)
    (hkeep : ∀ k acc i cur a v k' g, c.update k acc i cur a = .ok (v, k', g) →
      (c.chains k').map (fun f => (f.1, f.2.take i)) = (c.chains k).map fun f => (f.1, f.2.take i)) :
    (out.blocks.filter fun b => b.sampler = j).map (fun b => (b.start, b.stop)) =
      out.run.final.logs.map (fun b => (b.start, b.stop)) ∧
    ∃ k, out.samplers[j]? = some (c, k) ∧
      ∀ (f : ℕ) name rows, (c.chains k)[f]? = some (name, rows) →
        (∀ b ∈ out.blocks, b.sampler = j → ∃ part, b.parts[f]? = some (name, part)) ∧
        (out.blocks.filter fun b => b.sampler = j).flatMap
          (fun b => (b.parts[f]?.map Prod.snd).getD []) = rows.take o.opts.nsimu.toNat := by
  obtain ⟨o1, I, s0, vs, cs1, g, h1, h2, h3, h4, h5, h6⟩ := runCustom_ok h
  obtain ⟨gs, hpass⟩ := setupAll_ok h2
  have key : StartSpec (U.given none) o o1 rng I s0 ∧ 0 < I.opts.nsimu := by
    cases up with
    | false => exact ⟨(setup_fresh h1).1, (setup_fresh h1).2.1⟩
    | true => exact ⟨(setup_continue h1).1, (setup_continue h1).2.1⟩
  obtain ⟨hst, hpos⟩ := key
  have hopt : o.opts.nsimu = I.opts.nsimu := by rw [hst.init.opts, ← hst.opts]; rfl
  have hsz : 1 ≤ (runOpts I.opts o1.extra).savesize := by
    have : (runOpts I.opts o1.extra).savesize = I.opts.savesize.toNat := rfl
    rw [this, hst.init.opts]
    rw [hst.init.opts] at hpos
    unfold checkDependentSimulationOptions at hpos ⊢
    dsimp only at hpos ⊢
    split <;> omega
  obtain ⟨hn, c1, ⟨hL, hB⟩, hfin, hsam, -, hbl⟩ := customSimulator_inv
    (P := fun i C => LogInv (runOpts I.opts o1.extra).savesize (withRng s0 g) i C.sim ∧
      BlockInv cs c j (runOpts I.opts o1.extra).savesize i C)
    ⟨LogInv.init _, hpass.same, fun k _ => by simp⟩
    (fun i C C' s' p g' hi _ hP hs => by
      refine ⟨?_, hP.2.step hj hsave hkeep hsz hi hP.1.savecount hs⟩
      rw [hs.sim]
      exact (LogInv.step (E := customEnv U
        ⟨I.problem, G, L, runOpts I.opts o1.extra, fuel⟩ C.output) hsz hi hP.1 hs.step).withRng g') h3
  dsimp only at hn hfin hsam hbl hL hB
  generalize (runOpts I.opts o1.extra).savesize = sz at hsz hL hB
  have hN : (runOpts I.opts o1.extra).nsimu = I.opts.nsimu.toNat := rfl
  rw [hN] at hn hfin hbl hL hB
  generalize hnn : I.opts.nsimu.toNat = nn at hn hfin hbl hL hB
  obtain ⟨k, hk⟩ := samplers_at hB.fst hj
  have hbs := hB.blocks k hk
  have hfl : out.blocks.filter (fun b => decide (b.sampler = j)) =
      ((List.range ((nn - 1) / sz)).map fun q => (⟨j, q * sz, (q + 1) * sz,
        sliceParts (c.chains k) (q * sz) ((q + 1) * sz)⟩ : CustomBlock F)) ++
      [⟨j, (nn - 1) / sz * sz, nn, sliceParts (c.chains k) ((nn - 1) / sz * sz) nn⟩] := by
    rw [hbl, List.filter_append, hbs, filter_customBlocks hk (hsave k), hL.lastbin]
  refine ⟨?_, k, by rw [hsam]; exact hk, fun f name rows hf => ⟨fun b hb hbj => ?_, ?_⟩⟩
  · rw [hfl, hfin]
    dsimp only
    rw [hL.logs, show (withRng s0 g).logs = [] from hst.logs, List.nil_append, List.map_append,
      List.map_append, List.map_map, List.map_map, hL.lastbin]
    unfold mkBlock
    cases c1.sim.logSource <;> rfl
  · have hb' : b ∈ out.blocks.filter (fun b => decide (b.sampler = j)) := by
      rw [List.mem_filter]; exact ⟨hb, by simpa using hbj⟩
    rw [hfl, List.mem_append, List.mem_map, List.mem_singleton] at hb'
    rcases hb' with ⟨q, _, rfl⟩ | rfl
    · exact ⟨_, by simp only [sliceParts, List.getElem?_map, hf]; rfl⟩
    · exact ⟨_, by simp only [sliceParts, List.getElem?_map, hf]; rfl⟩
  · rw [hfl, List.flatMap_append, List.flatMap_map]
    simp only [sliceParts, List.getElem?_map, hf, List.flatMap_cons, List.flatMap_nil,
      List.append_nil, Option.map_some, Option.getD_some]
    rw [flatMap_slices, hopt, hnn]
    unfold pySlice
    rw [List.drop_zero]
    have hk' : (nn - 1) / sz * sz ≤ nn - 1 := Nat.div_mul_le_self _ _
    have e : rows.take ((nn - 1) / sz * sz) = (rows.take nn).take ((nn - 1) / sz * sz) := by
      rw [List.take_take, min_eq_left (by omega)]
    rw [e, List.take_append_drop]

/-- the first sampler of the example: three blocks, together its six values -/
example : ∃ out, Toy.customRun = .ok out ∧ ∃ k, out.samplers[0]? = some (Toy.counter, k) ∧
    (out.blocks.filter fun b => b.sampler = 0).flatMap (fun b => (b.parts[0]?.map Prod.snd).getD []) =
      (k.map fun x => [x]).take 6 := by
  obtain ⟨out, h⟩ := exists_ok (x := Toy.customRun) (by decide +kernel)
  obtain ⟨_, k, h1, h2⟩ := C102_custom_chains_saved h (j := 0) (c := Toy.counter)
    (k0 := List.replicate 6 0) rfl (fun _ => rfl) (fun k acc i cur a v k' g hu => by
      have : k' = k.set i (1 / ((i : ℚ) + 1)) := by
        have := congrArg (fun x => x.2.1) (Except.ok.inj hu)
        exact this.symm
      subst this
      simp [Toy.counter, ← List.map_take, List.take_set_of_le])
  exact ⟨out, h, k, h1, (h2 0 "tau" _ rfl).2⟩

/-! ### C103 -/

/-- **C103.** Custom samplers that draw nothing from numpy's generator and never raise, in a run whose
sum-of-squares function does not look at what it is given for `custom`, change nothing: the run
succeeds or fails exactly as the run without them, in which the function is called with `custom=None` (and
without the keyword if it does not take it), with the same results.  In particular a run with
an empty list of custom samplers is the run that the other properties are about. -/
theorem C103_silent_samplers {U : CustomFuns F V N (nS flags) m} {G : Rng σ F} {L : Lapack F}
    {fuel : ℕ} {cs : Samplers F σ κ V (nS flags) m} {o : Obj F flags m} {rng : σ} {up : Bool}
    (hsos : ∀ a v, U.sosFun (.custom a) v = U.sosFun (.custom none) v)
    (hquiet : ∀ c k0, (c, k0) ∈ cs → (∀ k g, ∃ v k', c.setup k g = .ok (v, k', g)) ∧
      ∀ k acc i cur g, ∃ v k', c.update k acc i cur g = .ok (v, k', g)) :
    (runCustom U G L fuel cs o rng up).map (fun out => out.run) =
      runSimulation ⟨U.style1, fun keyword => if keyword then U.sosFun (.custom none) else U.sosFun .plain,
        U.priorFun⟩ G L fuel o rng up := by
  have hU : (⟨U.style1, fun keyword => if keyword then U.sosFun (.custom none) else U.sosFun .plain,
      U.priorFun⟩ : UserFuns F N (nS flags) m) = U.given none := by
    unfold CustomFuns.given
    congr 1
    funext kw
    cases kw <;> rfl
  rw [hU]
  have hq : Quiet (cs.map Prod.fst) := by
    intro c hc
    obtain ⟨⟨c', k0⟩, h1, rfl⟩ := List.mem_map.1 hc
    exact hquiet _ k0 h1
  unfold runCustom runSimulation
  cases h1 : setupSimulator (U.given none) L o rng up with
  | error e => rfl
  | ok r =>
    obtain ⟨o1, I, s0⟩ := r
    simp only [ok_bind]
    obtain ⟨vs, cs', h2, h3⟩ := setupAll_quiet cs hq s0.world.rng
    rw [h2, ok_bind]
    dsimp only
    have hst : I.problem.sosFun = (U.given none).sosFun := by
      cases up with
      | false => exact (setup_fresh h1).1.init.sosFun
      | true => exact (setup_continue h1).1.init.sosFun
    have hE : ∀ vs, customEnv U ⟨I.problem, G, L, runOpts I.opts o1.extra, fuel⟩ vs =
        ⟨I.problem, G, L, runOpts I.opts o1.extra, fuel⟩ := by
      intro vs
      unfold customEnv
      rw [given_of_ignores hsos, ← hst]
    have h4 := customSimulator_quiet hE ⟨s0, cs', vs, []⟩ (by rw [h3]; exact hq)
    dsimp only at h4
    rw [← h4]
    generalize customSimulator U ⟨I.problem, G, L, runOpts I.opts o1.extra, fuel⟩
      ⟨s0, cs', vs, []⟩ = x
    cases x with
    | error e => rfl
    | ok C =>
      simp only [Except.map, ok_bind]
      cases generateResults o1 I C.sim with
      | error e => rfl
      | ok res => rfl

/-- the counting sampler in a run whose sum of squares does not use it -/
example : (runCustom ⟨true, fun _ v => Toy.user.sosFun true v, Toy.user.priorFun⟩ Toy.rng Toy.lapack 100
    [(Toy.counter, List.replicate 5 0)] (Toy.obj .dram 5) 0 false).map (fun out => out.run) =
    Toy.run .dram 5 := by
  have := C103_silent_samplers (U := ⟨true, fun _ v => Toy.user.sosFun true v, Toy.user.priorFun⟩)
    (G := Toy.rng) (L := Toy.lapack) (fuel := 100) (cs := [(Toy.counter, List.replicate 5 0)])
    (o := Toy.obj .dram 5) (rng := 0) (up := false) (fun _ _ => rfl) (fun c k0 hc => by
      simp only [List.mem_singleton, Prod.mk.injEq] at hc
      obtain ⟨rfl, _⟩ := hc
      exact ⟨fun k g => ⟨_, _, rfl⟩, fun k acc i cur g => ⟨_, _, rfl⟩⟩)
  rw [this]
  unfold Toy.run
  congr 2
  funext kw v
  cases kw <;> rfl

end Verif
