import Verif.Lemmas.Counts
import Verif.Lemmas.AdaptRun
import Verif.Props.Continue
import Verif.Props.Progress
import Verif.Spec.Toy
import Verif.Spec.XToy
import Mathlib.Tactic.NormNum
import Mathlib.Tactic.Linarith

/-! # C73: scaling of the proposal during the burn-in -/

set_option linter.unusedSectionVars false

namespace Verif
section general
variable {F σ : Type} [PyFloat F] {N m : ℕ} {flags : Fin N → Bool}

/-- the number of rejected moves among the last `a` iterations up to iteration `i` -/
def rejectedBefore {n : ℕ} (tr : List (List (Try F n))) (i a : ℕ) : ℕ :=
  ((tr.take i).drop (i - a)).countP Rejection

/-- the fraction of rejected moves among the last `a` iterations -/
def rejectionRate {n : ℕ} (tr : List (List (Try F n))) (i a : ℕ) : F :=
  ofInt (rejectedBefore tr i a) * (lit 1 / ofInt a)

/-- what an adaptation in the burn-in does -/
def BurninSpec {n : ℕ} (a : ℕ) (scale : F) (tr : List (List (Try F n))) (r : AdaptRecord F n) :
    Prop :=
  a ≤ r.at_ ∧ r.at_ ≤ tr.length ∧
    r.after = { r.before with R := r.after.R, RDR := .pyNone, invR := none } ∧
    (PyFloat.lt (lit (95/100)) (rejectionRate tr r.at_ a) = true →
      ∀ i j, r.after.R i j = r.before.R i j * (lit 1 / scale)) ∧
    (PyFloat.lt (lit (95/100)) (rejectionRate tr r.at_ a) = false →
      PyFloat.lt (rejectionRate tr r.at_ a) (lit (5/100)) = true →
      ∀ i j, r.after.R i j = r.before.R i j * scale) ∧
    (PyFloat.lt (lit (95/100)) (rejectionRate tr r.at_ a) = false →
      PyFloat.lt (rejectionRate tr r.at_ a) (lit (5/100)) = false →
      r.after.R = r.before.R)

theorem rejectedBefore_append {n : ℕ} {tr : List (List (Try F n))} {i : ℕ} (a : ℕ) (t : List (Try F n))
    (h : i ≤ tr.length) : rejectedBefore (tr ++ [t]) i a = rejectedBefore tr i a := by
  unfold rejectedBefore
  rw [List.take_append_of_le_length h]

theorem BurninSpec.append {n a : ℕ} {scale : F} {tr : List (List (Try F n))} {r : AdaptRecord F n}
    (h : BurninSpec a scale tr r) (t : List (Try F n)) : BurninSpec a scale (tr ++ [t]) r := by
  unfold BurninSpec rejectionRate at h ⊢
  rw [rejectedBefore_append a t h.2.1]
  exact ⟨h.1, by rw [List.length_append]; omega, h.2.2⟩

/-- Invariant: what is known of the rejections since the last adaptation and of all adaptations. -/
structure BurninInv {n : ℕ} (E : Env F σ N n m) (i : ℕ) (s : SimState F σ N n m) : Prop where
  len : s.trace.length + 1 = i
  le : s.iiadapt ≤ s.trace.length
  count : s.rejected.inInterval = rejectedBefore s.trace s.trace.length s.iiadapt
  log : ∀ r ∈ s.adaptLog, (r.at_ : ℤ) < E.opts.burnintime →
    BurninSpec E.opts.adaptint.toNat E.opts.burninScale s.trace r
  at_ : s.adaptLog.map (fun r => r.at_) = s.adaptedAt

theorem BurninInv.step {n : ℕ} {E : Env F σ N n m} {s s' : SimState F σ N n m} {i : ℕ}
    {p : Proposal F σ N n m} (h : BurninInv E i s) (hp : StepSpec E i s s' p) :
    BurninInv E (i + 1) s' := by
  have hpr := propose_ok hp.prop
  have hrej : (if p.accept then 0 else 1) = List.countP Rejection [p.tries] := by
    cases ha : p.accept with
    | false =>
      have : Rejection p.tries = true := by
        simpa [Rejection, List.all_eq_true] using (hpr.rej ha).1
      simp [this]
    | true =>
      obtain ⟨_, _, _, pre, h1, h2, _⟩ := hpr.acc ha
      simp [Rejection, h1]
  have hl := h.le
  have hcount : (s.rejected.inInterval + if p.accept then 0 else 1) =
      rejectedBefore s'.trace s'.trace.length (s.iiadapt + 1) := by
    rw [h.count, hrej, hp.trace]
    unfold rejectedBefore
    rw [List.take_length, List.take_length, List.length_append, List.length_singleton,
      List.drop_append_of_le_length (by omega), List.countP_append]
    congr 3
    omega
  refine ⟨by rw [hp.trace, List.length_append, List.length_singleton, h.len], ?_, ?_, ?_, ?_⟩
  · rw [hp.iiadapt, hp.trace, List.length_append, List.length_singleton]
    split <;> omega
  · rw [hp.rejIn, hp.iiadapt]
    split
    · simp [rejectedBefore]
    · exact hcount
  · intro r hr hb
    rw [hp.adaptLog] at hr
    rcases List.mem_append.1 hr with hr | hr
    · rw [hp.trace]
      exact (h.log r hr hb).append _
    · split at hr
      · rename_i ha
        rw [List.mem_singleton] at hr
        rw [hr] at hb ⊢
        have hc := hp.cov
        rw [if_pos ha] at hc
        rcases runAdaptation_ok hc with ⟨_, hc⟩ | ⟨hb', _⟩
        · have hin : (if p.accept then s.rejected else ⟨s.rejected.total + 1, s.rejected.inInterval + 1,
              s.rejected.outside + if p.outbound then 1 else 0⟩ : Rejected).inInterval =
              rejectedBefore s'.trace s'.trace.length (s.iiadapt + 1) := by
            rw [← hcount]; cases p.accept <;> rfl
          have e1 : E.opts.adaptint.toNat = s.iiadapt + 1 := by
            have := ha.2; omega
          have e2 : s'.trace.length = i := by
            rw [hp.trace, List.length_append, List.length_singleton, h.len]
          rw [e2] at hin
          have hR : s'.cov.R = belowBurninThreshold (if p.accept then s.rejected else
              ⟨s.rejected.total + 1, s.rejected.inInterval + 1,
                s.rejected.outside + if p.outbound then 1 else 0⟩) (s.iiadapt + 1) s.cov.R
              E.opts.burninScale := by rw [hc]
          unfold belowBurninThreshold at hR
          rw [hin] at hR
          unfold BurninSpec rejectionRate
          dsimp only at hR ⊢
          rw [e1, e2]
          refine ⟨by have := h.len; omega, le_rfl, ?_, fun q1 => ?_, fun q1 q2 => ?_, fun q1 q2 => ?_⟩
          · rw [hc]
          · rw [hR, if_pos q1]; intro i j; rfl
          · rw [hR, if_neg (by rw [q1]; decide), if_pos q2]; intro i j; rfl
          · rw [hR, if_neg (by rw [q1]; decide), if_neg (by rw [q2]; decide)]
        · exact absurd hb (by dsimp only; omega)
      · cases hr
  · rw [hp.adaptLog, hp.adaptedAt, List.map_append, h.at_]
    split <;> rfl

/-- **C73.** Whatever the state of the object, an adaptation of a run before `burnintime` counts the
rejected moves among the last `adaptint` iterations, this one included.  If their fraction is above
0.95 the proposal factor is divided by `burnin_scale`, if it is below 0.05 the factor is multiplied by
it, otherwise the factor stays.  The chain statistics stay as they were and the delayed-rejection
factors are dropped. -/
theorem C73_burnin_scaling {U : UserFuns F N (nS flags) m} {o : Obj F flags m}
    {G : Rng σ F} {L : Lapack F} {fuel : ℕ} {rng : σ} {up : Bool}
    {out : RunOut F σ flags m} (h : runSimulation U G L fuel o rng up = .ok out) :
    out.final.adaptLog.map (fun r => r.at_) = out.final.adaptedAt ∧
    ∀ r ∈ out.final.adaptLog, (r.at_ : ℤ) < o.opts.burnintime →
      BurninSpec o.opts.adaptint.toNat o.extra.burninScale out.final.trace r := by
  obtain ⟨o1, I, s0, hst, rfl, hc0, h1, h2, _, hinit⟩ := run_cov h
  have hex := setup_extra h1
  obtain ⟨_, s1, hP, hfin⟩ := executeSimulator_inv
    (P := fun i s => BurninInv ⟨out.init.problem, G, L, runOpts out.init.opts o1.extra, fuel⟩ i s)
    ⟨by simp [loopStart, hst.trace], by simp [loopStart], by simp [loopStart, rejectedBefore],
      by simp [loopStart, hst.adaptLog], by simp [loopStart, hst.adaptLog, hst.adaptedAt]⟩
    (fun i a b p _ _ hP hp => hP.step hp) h2
  have hb : out.init.opts.burnintime = o.opts.burnintime := by rw [hst.init.opts, hst.opts]; rfl
  have ha : out.init.opts.adaptint = o.opts.adaptint := by rw [hst.init.opts, hst.opts]; rfl
  have hs : o1.extra.burninScale = o.extra.burninScale := by rw [hex]
  rw [hfin]
  refine ⟨hP.at_, fun r hr hlt => ?_⟩
  have := hP.log r hr (by change (r.at_ : ℤ) < out.init.opts.burnintime; omega)
  change BurninSpec out.init.opts.adaptint.toNat o1.extra.burninScale s1.trace r at this
  rwa [ha, hs] at this

end general

section exact
open XR
variable {σ : Type} {N m : ℕ} {flags : Fin N → Bool}

theorem ofInt_fin (k : ℤ) : (ofInt k : XR) = .fin k := by
  unfold ofInt
  rw [lit_eq]
  simp

/-- **C73**, in exact arithmetic: with `c` rejections among the last `a = adaptint` iterations the
factor is divided by `burnin_scale` exactly when `c/a > 19/20` and multiplied by it exactly when
`c/a < 1/20`. -/
theorem C73_burnin_exact {U : UserFuns XR N (nS flags) m} {o : Obj XR flags m}
    {G : Rng σ XR} {L : Lapack XR} {fuel : ℕ} {rng : σ} {up : Bool}
    {out : RunOut XR σ flags m} (h : runSimulation U G L fuel o rng up = .ok out)
    {b : ℝ} (hb : b ≠ 0) (hs : o.extra.burninScale = .fin b)
    {r : AdaptRecord XR (nS flags)} (hr : r ∈ out.final.adaptLog)
    (hlt : (r.at_ : ℤ) < o.opts.burnintime) :
    ∃ a c : ℕ, (a : ℤ) = o.opts.adaptint ∧
      c = ((out.final.trace.take r.at_).drop (r.at_ - a)).countP Rejection ∧ c ≤ a ∧
      (19 * a < 20 * c → ∀ i j, r.after.R i j = r.before.R i j * .fin (1 / b)) ∧
      (20 * c < a → ∀ i j, r.after.R i j = r.before.R i j * .fin b) ∧
      (a ≤ 20 * c → 20 * c ≤ 19 * a → r.after.R = r.before.R) := by
  obtain ⟨hat, hall⟩ := C73_burnin_scaling h
  obtain ⟨q1, q2, -, q3, q4, q5⟩ := hall r hr hlt
  have hpos : 0 < o.opts.adaptint := by
    by_contra hneg
    have := (C14_adaptation_schedule_partial h).2 (by omega)
    rw [this.1, List.map_eq_nil_iff] at hat
    rw [hat] at hr
    cases hr
  obtain ⟨a, ha⟩ := Int.eq_ofNat_of_zero_le hpos.le
  rw [ha, Int.toNat_natCast] at q1 q3 q4 q5
  have ha0 : 0 < a := by omega
  have ha' : (0 : ℝ) < a := by exact_mod_cast ha0
  unfold rejectionRate at q3 q4 q5
  set c := rejectedBefore out.final.trace r.at_ a with hc
  have hrate : (ofInt (c : ℤ) * (lit 1 / ofInt (a : ℤ)) : XR) = .fin (c / a) := by
    rw [ofInt_fin, ofInt_fin, lit_eq, fin_div (by exact_mod_cast ha'.ne'), fin_mul]
    congr 1
    push_cast
    ring
  rw [hrate] at q3 q4 q5
  rw [hs] at q3 q4
  simp only [lit_eq] at q3 q4 q5
  have e95 : PyFloat.lt (XR.fin ((95 / 100 : ℚ) : ℝ)) (.fin (c / a)) = decide (19 * a < 20 * c) := by
    rw [fin_lt]
    refine decide_eq_decide.2 ?_
    rw [lt_div_iff₀ ha']
    rw [← Nat.cast_lt (α := ℝ)]
    push_cast
    constructor <;> intro h <;> linarith
  have e05 : PyFloat.lt (.fin (c / a)) (XR.fin ((5 / 100 : ℚ) : ℝ)) = decide (20 * c < a) := by
    rw [fin_lt]
    refine decide_eq_decide.2 ?_
    rw [div_lt_iff₀ ha']
    rw [← Nat.cast_lt (α := ℝ)]
    push_cast
    constructor <;> intro h <;> linarith
  rw [e95] at q3 q4 q5
  rw [e05] at q4 q5
  have e1 : (lit 1 : XR) / .fin b = .fin (1 / b) := by rw [lit_eq, fin_div hb]; simp
  rw [lit_eq] at e1
  rw [e1] at q3
  refine ⟨a, c, ha.symm, rfl, ?_, fun h1 => q3 (by simpa using h1), fun h1 => ?_, fun h1 h2 => ?_⟩
  · refine List.countP_le_length.trans ?_
    rw [List.length_drop, List.length_take]
    omega
  · exact q4 (by simp; omega) (by simpa using h1)
  · exact q5 (by simpa using h2) (by simpa using h1)

/-- C73 in a run with burn-in: 7 rows, adaptation interval 3, burn-in up to iteration 5, so that the
adaptation at iteration 3 is in the burn-in and the one at iteration 6 is not -/
example : ∃ out : RunOut ℚ ℕ Toy.flags 1,
    runSimulation Toy.user Toy.rng Toy.lapack 100 (newObj Toy.specs (defineSimulationOptions
      { method := .am, nsimu := 8, adaptint := some 3, burnintime := 5 }) Toy.extra Toy.settings
      Toy.data) 0 false = .ok out ∧ out.final.adaptedAt = [3, 6] ∧
    ∃ r ∈ out.final.adaptLog, r.at_ = 3 ∧ BurninSpec 3 10 out.final.trace r := by
  obtain ⟨out, h, hp⟩ := exists_ok_and (x := runSimulation Toy.user Toy.rng Toy.lapack 100
    (newObj Toy.specs (defineSimulationOptions
      { method := .am, nsimu := 8, adaptint := some 3, burnintime := 5 }) Toy.extra Toy.settings
      Toy.data) 0 false) (fun out => decide (out.final.adaptedAt = [3, 6])) (by decide +kernel)
  have hp' : out.final.adaptedAt = [3, 6] := by simpa using hp
  obtain ⟨h1, h2⟩ := C73_burnin_scaling h
  obtain ⟨r, hr, h3⟩ : ∃ r ∈ out.final.adaptLog, r.at_ = 3 := by
    have : 3 ∈ out.final.adaptLog.map (fun r => r.at_) := by rw [h1, hp']; simp
    simpa using this
  refine ⟨out, h, hp', r, hr, h3, h2 r hr ?_⟩
  rw [h3]
  decide

/-- C73 in exact arithmetic: a run with burn-in and `burnin_scale = 10` -/
example (L : Lapack XR) : ∃ (out : RunOut XR Unit XRun.flags 1) (b : ℝ) (r : _), b ≠ 0 ∧
    runSimulation XRun.user XRun.rng L 0 (XRun.obj { XRun.args with burnintime := 3 }) () false = .ok out ∧
    (XRun.obj { XRun.args with burnintime := 3 }).extra.burninScale = .fin b ∧
    r ∈ out.final.adaptLog ∧ (r.at_ : ℤ) < 3 := by
  obtain ⟨⟨o1, I, s0⟩, h⟩ := XRun.setup_ok L { XRun.args with burnintime := 3 } (by decide) rfl
    ⟨by decide, by decide⟩ true 1 1
  have hst := (setup_fresh h).1
  have hnt' : ¬ 1 < (XRun.obj { XRun.args with burnintime := 3 }).opts.ntry := by decide
  obtain ⟨out, h⟩ : ∃ out, runSimulation XRun.user XRun.rng L 0
      (XRun.obj { XRun.args with burnintime := 3 }) () false = .ok out := by
    rcases C64_run_returns (G := XRun.rng) (fuel := 0) h (by decide) (by decide)
      (fun v => by simp [XRun.user]) (fun h => absurd h hnt')
      (show XRun.data.n ≠ [] by decide) with h | ⟨_, h, _⟩ | ⟨_, h, _⟩
    · exact h
    · exact absurd h hnt'
    · rw [hst.init.opts, hst.opts, hst.ms] at h
      cases h
  obtain ⟨h1, -⟩ := C73_burnin_scaling h
  obtain ⟨r, hr, h3⟩ : ∃ r ∈ out.final.adaptLog, r.at_ = 2 := by
    have : 2 ∈ out.final.adaptLog.map (fun r => r.at_) := by
      rw [h1, ((C14_adaptation_schedule_partial h).1 (by decide)).2]
      decide
    simpa using this
  exact ⟨out, 10, r, by norm_num, h, rfl, hr, by rw [h3]; decide⟩

end exact
end Verif
