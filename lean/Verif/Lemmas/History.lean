import Verif.Lemmas.Run
import Verif.Spec.Run

/-! # Invariants over all runs of one object -/

set_option linter.unusedSectionVars false

namespace Verif
variable {F σ : Type} [PyFloat F] {N m : ℕ} {flags : Fin N → Bool}

theorem belongsTo_of {specs : Fin N → ParamSpec F} {row : Vec F (nS flags)} {v : Vec F N}
    (h1 : ∀ i, v (parindOf flags i) = row i) (h2 : ∀ k, flags k = false → v k = (specs k).theta0) :
    BelongsTo flags specs row v := by
  refine ⟨?_, h2⟩
  apply List.ext_getElem
  · rw [List.length_map, List.length_ofFn]; rfl
  · intro i hi hi'
    simp only [List.getElem_map, List.getElem_ofFn]
    exact h1 ⟨i, by rw [List.length_map] at hi; exact hi⟩

theorem inLimits_of {specs : Fin N → ParamSpec F} {row : Vec F (nS flags)}
    (h : isOutside row (atParind flags fun k => (specs k).minimum)
      (atParind flags fun k => (specs k).maximum) = false) : InLimits flags specs row := by
  rw [isOutside_eq_false] at h
  intro i k hk
  have : parindOf flags i = k := by
    rw [List.getElem?_eq_some_iff] at hk
    obtain ⟨_, hk⟩ := hk
    exact hk
  have := h i
  simp only [atParind, ‹parindOf flags i = k›] at this
  exact this

/-- A pair of rows is right: within the limits, and the sum-of-squares belongs to the row. -/
def RowGood (U : UserFuns F N (nS flags) m) (specs : Fin N → ParamSpec F) (row : Vec F (nS flags))
    (ss : Vec F m) : Prop :=
  InLimits flags specs row ∧ ∃ v, BelongsTo flags specs row v ∧ SosValue U v ss

theorem RowGood.same {U : UserFuns F N (nS flags) m} {p q : Fin N → ParamSpec F}
    (h : SameSpecs flags p q) {row : Vec F (nS flags)} {ss : Vec F m} (hr : RowGood U q row ss) :
    RowGood U p row ss := by
  obtain ⟨h1, v, h2, h3⟩ := hr
  refine ⟨fun i k hk => ?_, v, ⟨h2.1, fun k hk => (h2.2 k hk).trans (h.fixed k hk)⟩, h3⟩
  have := h1 i k hk
  rwa [h.minimum, h.maximum] at this

/-- `RowOk` for the problem of an initialised run says `RowGood`. -/
theorem rowGood_of_rowOk {U : UserFuns F N (nS flags) m} {o : Obj F flags m} {rng : σ}
    {I : Init F σ flags m} (hI : InitSpec U o rng I) {row : Vec F (nS flags)} {ss : Vec F m}
    (h : RowOk I.problem I.world.value row ss) : RowGood U o.specs row ss := by
  obtain ⟨h1, v, h2, h3⟩ := h
  rw [hI.lower, hI.upper] at h1
  rw [hI.parind] at h2 h3
  rw [hI.style1, hI.sosFun] at h3
  refine ⟨inLimits_of h1, _, belongsTo_of (fun i => ?_) (fun k hk => ?_), h3⟩
  · exact writeAt_sampled (parindOf_injective flags) i
  · rw [writeAt_fixed (not_parindOf hk), h2 k (not_parindOf hk), hI.value]

theorem writeAt_self {n : ℕ} {parind : Fin n → Fin N} (hinj : Function.Injective parind)
    {theta : Vec F n} {v : Vec F N} (h : ∀ i, v (parind i) = theta i) :
    writeAt parind theta v = v := by
  funext k
  by_cases hk : ∃ i, parind i = k
  · obtain ⟨i, rfl⟩ := hk
    rw [writeAt_sampled hinj, h]
  · exact writeAt_fixed (fun i hi => hk ⟨i, hi⟩)

theorem initSet_rowOk {U : UserFuns F N (nS flags) m} {o : Obj F flags m} {rng : σ}
    {I : Init F σ flags m} (hI : InitSpec U o rng I) :
    RowOk I.problem I.world.value I.initialSet.theta I.initialSet.ss := by
  refine ⟨hI.inside, I.world.value, fun _ _ => rfl, ?_⟩
  rw [writeAt_self (by rw [hI.parind]; exact parindOf_injective flags)]
  · rw [hI.style1, hI.sosFun]; exact hI.sos
  · intro i; rw [hI.value, hI.theta, hI.parind]; rfl

/-- What is known of a completed run, before using where it started. -/
theorem run_good {U : UserFuns F N (nS flags) m} {G : Rng σ F} {L : Lapack F} {fuel : ℕ}
    {E : Env F σ N (nS flags) m} {o o1 : Obj F flags m} {rng : σ} {I : Init F σ flags m}
    {s0 s : SimState F σ N (nS flags) m} (hE : E = ⟨I.problem, G, L, runOpts I.opts o1.extra, fuel⟩)
    (hst : StartSpec U o o1 rng I s0) (h : executeSimulator E s0 = .ok s) :
    1 < I.opts.nsimu.toNat ∧ s.chainIndex + 1 = s0.chainIndex + I.opts.nsimu.toNat ∧
    s.chain.length = s0.chain.length ∧ s.sschain.length = s0.sschain.length ∧
    (∀ r, r ≤ s0.chainIndex → s.chain[r]? = s0.chain[r]?) ∧
    (∀ r, r ≤ s0.chainIndex → s.sschain[r]? = s0.sschain[r]?) ∧
    (∀ r, s0.chainIndex < r → r ≤ s.chainIndex → ∃ a b, s.chain[r]? = some a ∧
      s.sschain[r]? = some b ∧ RowGood U o1.specs a b) ∧
    RowGood U o1.specs s.oldSet.theta s.oldSet.ss := by
  have hinit := hst.init
  have h0 : RowOk E.problem s0.world.value s0.oldSet.theta s0.oldSet.ss := by
    rw [hst.oldSet, hst.world, hE]; exact initSet_rowOk hinit
  obtain ⟨hn, s1, hP, rfl⟩ := executeSimulator_inv (GoodInv E.problem s0) (GoodInv.init h0)
    (fun i a b p hi _ hP hp => hP.step hi hp) h
  subst hE
  have conv : ∀ a b, RowOk I.problem s0.world.value a b → RowGood U o1.specs a b := by
    intro a b hab; rw [hst.world] at hab; exact rowGood_of_rowOk hinit hab
  refine ⟨hn, hP.idx, hP.len, hP.len', hP.pre, hP.pre', ?_, conv _ _ hP.goodOld⟩
  intro r hr hr'
  obtain ⟨a, b, h1, h2, h3⟩ := hP.good r hr hr'
  exact ⟨a, b, h1, h2, conv _ _ h3⟩

/-- Invariant of the object between runs. -/
structure ObjInv (U : UserFuns F N (nS flags) m) (o0 o : Obj F flags m) : Prop where
  same : SameSpecs flags o0.specs o.specs
  len : o.results.isSome → o.chains.chain.length = o.chainIndex + 1
  len' : o.results.isSome → o.chains.sschain.length = o.chainIndex + 1
  rows : o.results.isSome → ∀ r, r ≤ o.chainIndex → ∃ a b, o.chains.chain[r]? = some a ∧
    o.chains.sschain[r]? = some b ∧ RowGood U o0.specs a b

theorem run_objInv {U : UserFuns F N (nS flags) m} {G : Rng σ F} {L : Lapack F} {fuel : ℕ}
    {o0 o : Obj F flags m} {rng : σ} {up : Bool} {out : RunOut F σ flags m}
    (hinv : ObjInv U o0 o) (h : runSimulation U G L fuel o rng up = .ok out) :
    ObjInv U o0 out.obj ∧ out.obj.results = some out.results ∧
    out.obj.chains.chain = out.results.chain ∧ out.obj.chains.sschain = out.results.sschain := by
  obtain ⟨o1, I, s0, h1, h2, h3, h4, h5⟩ := runSimulation_ok h
  obtain ⟨_, _, _, _, _, hc, hss, _⟩ := generateResults_ok h3
  refine ⟨?_, by rw [h5], by rw [h5, hc], by rw [h5, hss]⟩
  have key : StartSpec U o o1 rng I s0 ∧ s0.chain.length = s0.chainIndex + I.opts.nsimu.toNat ∧
      s0.sschain.length = s0.chainIndex + I.opts.nsimu.toNat ∧
      ∀ r, r ≤ s0.chainIndex → ∃ a b, s0.chain[r]? = some a ∧ s0.sschain[r]? = some b ∧
        RowGood U o0.specs a b := by
    cases up with
    | false =>
      obtain ⟨hst, hpos, hci, hch, hsc, -⟩ := setup_fresh h1
      have hp : 0 < I.opts.nsimu.toNat := by omega
      refine ⟨hst, by rw [hch, hci]; simp [zeroRows], by rw [hsc, hci]; simp [zeroRows], ?_⟩
      intro r hr
      obtain rfl : r = 0 := by omega
      refine ⟨_, _, by rw [hch, List.getElem?_set_self (by simpa [zeroRows] using hp)],
        by rw [hsc, List.getElem?_set_self (by simpa [zeroRows] using hp)], ?_⟩
      exact RowGood.same (hinv.same.trans hst.same)
        (rowGood_of_rowOk hst.init (initSet_rowOk hst.init))
    | true =>
      obtain ⟨hst, hpos, hci, hch, hsc, _, _, _, ⟨res, hres, _⟩, _⟩ := setup_continue h1
      have hsome : o.results.isSome := by rw [hres]; rfl
      have l1 := hinv.len hsome
      have l2 := hinv.len' hsome
      refine ⟨hst, by rw [hch, hci]; simp [zeroRows, l1]; omega,
        by rw [hsc, hci]; simp [zeroRows, l2]; omega, ?_⟩
      intro r hr
      rw [hci] at hr
      obtain ⟨a, b, ha, hb, hab⟩ := hinv.rows hsome r hr
      refine ⟨a, b, ?_, ?_, hab⟩
      · rw [hch, List.getElem?_append_left (by omega)]; exact ha
      · rw [hsc, List.getElem?_append_left (by omega)]; exact hb
  obtain ⟨hst, hl, hl', hrows⟩ := key
  obtain ⟨g1, g2, g3, g4, g5, g6, g7, g8⟩ := run_good rfl hst h2
  rw [h5]
  refine ⟨hinv.same.trans hst.same, fun _ => ?_, fun _ => ?_, fun _ r hr => ?_⟩
  · dsimp only; omega
  · dsimp only; omega
  · dsimp only at hr ⊢
    by_cases hr' : r ≤ s0.chainIndex
    · rw [g5 r hr', g6 r hr']; exact hrows r hr'
    · obtain ⟨a, b, ha, hb, hab⟩ := g7 r (by omega) hr
      exact ⟨a, b, ha, hb, RowGood.same (hinv.same.trans hst.same) hab⟩

theorem reachable_objInv {U : UserFuns F N (nS flags) m} {o0 o : Obj F flags m}
    (h0 : o0.results = none) (h : Reachable U o0 o) : ObjInv U o0 o := by
  induction h with
  | start => exact ⟨SameSpecs.refl _, by simp [h0], by simp [h0], by simp [h0]⟩
  | options a e _ ih => exact ⟨ih.same, ih.len, ih.len', ih.rows⟩
  | run G L fuel rng up out _ hr ih => exact (run_objInv ih hr).1

end Verif
