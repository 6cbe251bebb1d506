import Mathlib.Tactic.FinCases
import Verif.Lemmas.History
import Verif.Lemmas.CovRun
import Verif.Spec.Toy

/-! # C71: the prior stays the user's through all runs -/

set_option linter.unusedSectionVars false

namespace Verif
variable {F σ : Type} [PyFloat F] {N m : ℕ} {flags : Fin N → Bool}

/-- the centre of the prior of a parameter is still the user's: the mean the user gave, or, if none was
given, either nothing has been written and the initial value is the user's, or that value has been
written in its place -/
def CentreKept (p q : ParamSpec F) : Prop :=
  (PyFloat.isnan p.priorMu = false → q.priorMu = p.priorMu) ∧
  (PyFloat.isnan p.priorMu = true →
    (q.priorMu = p.priorMu ∧ q.theta0 = p.theta0) ∨ q.priorMu = p.theta0)

theorem CentreKept.resultToParam {p q : Fin N → ParamSpec F} {name : String} {v : F}
    (hnan : ∀ k, PyFloat.isnan (p k).theta0 = false) (h : ∀ k, CentreKept (p k) (q k)) :
    ∀ k, CentreKept (p k) (Verif.resultToParam flags name v q k) := by
  intro k
  unfold Verif.resultToParam
  split
  · obtain ⟨h1, h2⟩ := h k
    refine ⟨fun hp => ?_, fun hp => .inr ?_⟩
    · have := h1 hp
      dsimp only
      rw [if_neg (by rw [this, hp]; simp), this]
    · dsimp only
      rcases h2 hp with ⟨h3, h4⟩ | h3
      · rw [if_pos (by rw [h3]; exact hp), h4]
      · rw [if_neg (by rw [h3, hnan k]; simp), h3]
  · exact h k

theorem CentreKept.resultsToParams {p q r : Fin N → ParamSpec F} {parind : List ℕ} {names : List String}
    {theta : List F} (hnan : ∀ k, PyFloat.isnan (p k).theta0 = false) (h : ∀ k, CentreKept (p k) (q k))
    (hr : Verif.resultsToParams flags parind names theta q = .ok r) : ∀ k, CentreKept (p k) (r k) := by
  unfold Verif.resultsToParams at hr
  refine foldlM_list_inv (P := fun r => ∀ k, CentreKept (p k) (r k)) _ _ _ h ?_ hr
  intro ii _ s s' hs hst
  obtain ⟨parii, _, hst⟩ := bind_ok.1 hst
  obtain ⟨v, _, hst⟩ := bind_ok.1 hst
  obtain ⟨nm, _, hst⟩ := bind_ok.1 hst
  cases hst
  exact CentreKept.resultToParam hnan hs

/-- the parameter table after the set-up of a run -/
theorem setup_centre {U : UserFuns F N (nS flags) m} {L : Lapack F} {o o1 : Obj F flags m}
    {rng : σ} {up : Bool} {I : Init F σ flags m} {s0 : SimState F σ N (nS flags) m}
    {p : Fin N → ParamSpec F} (hnan : ∀ k, PyFloat.isnan (p k).theta0 = false)
    (h : ∀ k, CentreKept (p k) (o.specs k)) (h1 : setupSimulator U L o rng up = .ok (o1, I, s0)) :
    ∀ k, CentreKept (p k) (o1.specs k) := by
  cases up with
  | false =>
    obtain ⟨_, _, _, _, _, _, _, _, _, hl⟩ := setup_fresh h1
    unfold loadRestart at hl
    split at hl
    · cases hl; exact h
    · obtain ⟨specs, h2, hl⟩ := bind_ok.1 hl
      cases hl
      exact CentreKept.resultsToParams hnan h h2
  | true =>
    obtain ⟨_, _, _, _, _, _, _, _, ⟨res, _, h2⟩, _⟩ := setup_continue h1
    exact CentreKept.resultsToParams hnan h h2

theorem reachable_centre {U : UserFuns F N (nS flags) m} {o0 o : Obj F flags m}
    (hnan : ∀ k, PyFloat.isnan (o0.specs k).theta0 = false) (h : Reachable U o0 o) :
    ∀ k, CentreKept (o0.specs k) (o.specs k) := by
  induction h with
  | start => exact fun k => ⟨fun _ => rfl, fun _ => .inl ⟨rfl, rfl⟩⟩
  | options a e _ ih => exact ih
  | @run o σ' G L fuel rng up out hr h ih =>
    obtain ⟨o1, I, s0, h1, h2, h3, h4, h5⟩ := runSimulation_ok h
    rw [h5]
    have := setup_centre hnan ih h1
    exact this

/-- **C71.** After any history of runs, restarts, continuations and option changes, a run evaluates the
prior function with the centre and width the user gave when defining the parameters: the centre is
the prior mean, or the user's initial value where no mean was given - not the point at which a
continued run starts; the width is the prior standard deviation, infinite where it is zero or
negative. (Initial values must not be NaN.) -/
theorem C71_prior_kept {U : UserFuns F N (nS flags) m} {o0 o : Obj F flags m} (h0 : o0.results = none)
    (hnan : ∀ k, PyFloat.isnan (o0.specs k).theta0 = false) (hre : Reachable U o0 o)
    {G : Rng σ F} {L : Lapack F} {fuel : ℕ} {rng : σ} {up : Bool} {out : RunOut F σ flags m}
    (h : runSimulation U G L fuel o rng up = .ok out) :
    ∃ mu sigma : Vec F (nS flags), UserPrior flags o0.specs mu sigma ∧
      ∀ th, out.init.problem.prior th = U.priorFun th mu sigma := by
  obtain ⟨o1, I, s0, h1, h2, h3, h4, h5⟩ := runSimulation_ok h
  have hst := (setup_start h1).1
  have hc := setup_centre hnan (reachable_centre hnan hre) h1
  have hsame := (reachable_objInv h0 hre).same.trans hst.same
  rw [h4]
  refine ⟨_, _, fun i k hk => ?_, hst.init.priorFun⟩
  have hik : parindOf flags i = k := by
    obtain ⟨_, hk⟩ := List.getElem?_eq_some_iff.1 hk
    exact hk
  unfold atParind
  dsimp only
  rw [hik, hsame.priorSigma]
  obtain ⟨g1, g2⟩ := hc k
  refine ⟨⟨fun hp => ?_, fun hp => ?_⟩, fun hb hl => ?_, fun hb => ?_⟩
  · unfold setupPriorMu
    rw [g1 hp, if_neg (by rw [hp]; simp)]
  · unfold setupPriorMu
    rcases g2 hp with ⟨e1, e2⟩ | e1
    · rw [e1, if_pos hp, e2]
    · rw [e1, if_neg (by rw [hnan k]; simp)]
  · unfold setupPriorSigma
    dsimp only
    have e : (if PyFloat.beq (o0.specs k).priorSigma (lit 0) = true then PyFloat.inf
        else (o0.specs k).priorSigma) = (o0.specs k).priorSigma := if_neg (by rw [hb]; simp)
    rw [e, if_neg (by rw [hl]; simp)]
  · unfold setupPriorSigma
    dsimp only
    by_cases hb' : PyFloat.beq (o0.specs k).priorSigma (lit 0) = true
    · simp only [if_pos hb', ite_self]
    · rcases hb with hb | hb
      · exact absurd hb hb'
      · simp only [if_neg hb', if_pos hb]

/-- The hypotheses hold for a run of 5 rows that is continued for 4 rows from another point. -/
example : ∃ a b mu sigma, Toy.twice .dram 5 4 = .ok (a, b) ∧ mu = ![1, 2] ∧ sigma = ![1000000, 1000000] ∧
    ∀ th, b.init.problem.prior th = Toy.user.priorFun th mu sigma := by
  obtain ⟨⟨a, b⟩, h⟩ := exists_ok (x := Toy.twice .dram 5 4) (by decide +kernel)
  have hab := h
  unfold Toy.twice at h
  rw [bind_ok] at h
  obtain ⟨a', h1, h⟩ := h
  rw [bind_ok] at h
  obtain ⟨b', h2, h⟩ := h
  cases h
  have hr : Reachable Toy.user (newObj Toy.specs { Toy.opts .dram 5 with updatesigma := true }
      Toy.extra Toy.settings Toy.data) { a.obj with
        opts := { Toy.opts .dram 4 with updatesigma := true }, extra := Toy.extra } :=
    .options { method := .dram, nsimu := 4, savesize := 2, updatesigma := true } Toy.extra
      (.run Toy.rng Toy.lapack 100 0 false a .start h1)
  obtain ⟨mu, sigma, g1, g2⟩ := C71_prior_kept rfl (by decide +kernel) hr h2
  refine ⟨a, b, mu, sigma, hab, ?_, ?_, g2⟩
  · funext i
    have := fun k hk => ((g1 i k hk).1.2)
    fin_cases i
    · exact this 0 (by decide +kernel) (by decide +kernel)
    · exact this 2 (by decide +kernel) (by decide +kernel)
  · funext i
    have := fun k hk => ((g1 i k hk).2.1)
    fin_cases i
    · exact this 0 (by decide +kernel) (by decide +kernel) (by decide +kernel)
    · exact this 2 (by decide +kernel) (by decide +kernel) (by decide +kernel)

end Verif
