import Verif.Props.Factors
import Verif.Props.Continuation
import Verif.Props.ErrorVariance

/-! # C76, C77: which problems run, and which are refused -/

set_option linter.unusedSectionVars false

namespace Verif
section general
variable {F σ : Type} [PyFloat F] {N m : ℕ} {flags : Fin N → Bool}

/-- The error-variance settings of the user fit a sum-of-squares function with `m` elements and data
with `n` observations per data set: every list is a single number or has `m` entries (an `S20` that
contains NaN counts as not given), and there are not between two and `m - 1` data sets. -/
structure SettingsFit (s : ModelSettings F) (n : List ℕ) (nbatch m : ℕ) : Prop where
  sigma2 : ∀ v, s.sigma2 = some v → RightSize v m
  N0 : ∀ v, s.N0 = some v → RightSize v m
  both : s.N0.isSome → s.sigma2 = none → s.nbatch.getD nbatch = 1 ∨ s.nbatch.getD nbatch = m
  S20 : (∃ x ∈ s.S20, PyFloat.isnan x = true) ∨ RightSize s.S20 m
  data : n.length ≤ 1 ∨ m ≤ n.length

/-- the checks of the settings pass exactly for settings that fit -/
theorem settings_pass {s : ModelSettings F} {n : List ℕ} {nbatch : ℕ} (hf : s.s20Alias = false)
    (hN : s.N = none) :
    ∃ s1, checkDependentModelSettings s n nbatch = .ok s1 ∧ s1.nbatch = some (s.nbatch.getD nbatch) ∧
      ((∃ s2, checkWrtNsos s1 m = .ok s2) ↔ SettingsFit s n nbatch m) := by
  have key : ∃ s1 sg n0, checkDependentModelSettings s n nbatch = .ok s1 ∧
      s1.nbatch = some (s.nbatch.getD nbatch) ∧ s1.sigma2 = some sg ∧ s1.N0 = some n0 ∧
      s1.N = some (n.map fun k : ℕ => ofInt k) ∧
      (sg = match s.N0, s.sigma2 with
        | none, none => [lit 1]
        | _, some v => v
        | some _, none => List.replicate (s.nbatch.getD nbatch) (lit 1)) ∧
      (n0 = match s.N0, s.sigma2 with
        | none, none => [lit 0]
        | none, some _ => [lit 1]
        | some v, _ => v) ∧
      s1.s20Now = if s.S20.any PyFloat.isnan then sg else s.S20 := by
    obtain ⟨sigma2, N, N0, nbatch', S20, al⟩ := s
    dsimp only at hf hN
    subst hf hN
    refine ⟨_, (match N0, sigma2 with
        | none, none => [lit 1]
        | _, some v => v
        | some _, none => List.replicate (nbatch'.getD nbatch) (lit 1)),
      (match N0, sigma2 with
        | none, none => [lit 0]
        | none, some _ => [lit 1]
        | some v, _ => v), rfl, ?_⟩
    cases N0 <;> cases sigma2 <;> by_cases hn : S20.any PyFloat.isnan = true <;>
      simp [defaultN0, ModelSettings.s20Now, hn]
  obtain ⟨s1, sg, n0, k1, k2, k3, k4, k5, k6, k7, k8⟩ := key
  refine ⟨s1, k1, k2, ?_⟩
  rw [(C25_refused k4 k3 k5).1, k8, List.length_map]
  have hone : ∀ x : F, RightSize [x] m := fun x => .inl rfl
  have hrep : ∀ (k : ℕ) (x : F), RightSize (List.replicate k x) m ↔ k = 1 ∨ k = m := by
    intro k x; unfold RightSize; rw [List.length_replicate]
  have hany : s.S20.any PyFloat.isnan = true ↔ ∃ x ∈ s.S20, PyFloat.isnan x = true := by
    rw [List.any_eq_true]
  constructor
  · rintro ⟨h1, h2, h3, h4⟩
    refine ⟨fun v hv => ?_, fun v hv => ?_, fun h0 hs => ?_, ?_, h4⟩
    · rw [hv] at k6
      have : sg = v := by rw [k6]; cases s.N0 <;> rfl
      rwa [← this]
    · rw [hv] at k7
      have : n0 = v := by rw [k7]
      rwa [← this]
    · obtain ⟨v, hv⟩ := Option.isSome_iff_exists.1 h0
      rw [hv, hs] at k6
      rw [k6] at h3
      exact (hrep _ _).1 h3
    · by_cases hn : s.S20.any PyFloat.isnan = true
      · exact .inl (hany.1 hn)
      · rw [if_neg hn] at h1; exact .inr h1
  · intro h
    have hsg : RightSize sg m := by
      rw [k6]
      cases h0 : s.N0 with
      | none =>
        cases hs : s.sigma2 with
        | none => exact hone _
        | some v => exact h.sigma2 v hs
      | some w =>
        cases hs : s.sigma2 with
        | none => exact (hrep _ _).2 (h.both (by rw [h0]; rfl) hs)
        | some v => exact h.sigma2 v hs
    refine ⟨?_, ?_, hsg, h.data⟩
    · split
      · exact hsg
      · rename_i hn
        exact h.S20.resolve_left fun h' => hn (hany.2 h')
    · rw [k7]
      cases h0 : s.N0 with
      | none => cases s.sigma2 <;> exact hone _
      | some w => exact h.N0 w h0

theorem errModel_exists {s s1 s2 : ModelSettings F} {n : List ℕ} {b : ℕ}
    (h1 : checkDependentModelSettings s n b = .ok s1) (h2 : checkWrtNsos s1 m = .ok s2) :
    ∃ M, toErrModel s2 m = .ok M := by
  obtain ⟨S20, f1, n0, N0, f2, sg, sigma2, f3, N1, N2, b1, b2, b3, b4, b5, b6, b7, rfl⟩ := checkWrtNsos_ok h2
  unfold toErrModel
  dsimp only
  rw [dif_pos ⟨checkSizeOfSetting_length b5, checkSizeOfSetting_length b3, checkSizeOfSetting_length b1⟩]
  exact ⟨_, rfl⟩

/-- the limits of every sampled parameter are in order and its initial value does not compare outside -/
def LimitsFit (flags : Fin N → Bool) (specs : Fin N → ParamSpec F) : Prop :=
  ∀ k, flags k = true → PyFloat.le (specs k).minimum (specs k).maximum = true ∧
    PyFloat.lt (specs k).theta0 (specs k).minimum = false ∧
    PyFloat.lt (specs k).maximum (specs k).theta0 = false

theorem checkLimits_iff (specs : Fin N → ParamSpec F) :
    (LimitsFit flags specs ∧ checkLimits flags specs = .ok ()) ∨
    (¬ LimitsFit flags specs ∧ ∃ msg, checkLimits flags specs = .error (.sysExit msg)) := by
  unfold checkLimits
  by_cases h1 : (sampledIdx flags).all (fun k => PyFloat.le (specs k).minimum (specs k).maximum) = true
  · rw [if_pos h1]
    have h1' : ∀ k, flags k = true → PyFloat.le (specs k).minimum (specs k).maximum = true := fun k hk =>
      List.all_eq_true.1 h1 k (List.mem_filter.2 ⟨List.mem_finRange k, hk⟩)
    cases h2 : isOutside (atParind flags fun k => (specs k).theta0) (atParind flags fun k => (specs k).minimum)
        (atParind flags fun k => (specs k).maximum) with
    | false =>
      left
      refine ⟨fun k hk => ⟨h1' k hk, ?_⟩, rfl⟩
      obtain ⟨i, rfl⟩ := exists_parindOf hk
      exact isOutside_eq_false.1 h2 i
    | true =>
      right
      refine ⟨fun h => ?_, _, rfl⟩
      have : isOutside (atParind flags fun k => (specs k).theta0) (atParind flags fun k => (specs k).minimum)
        (atParind flags fun k => (specs k).maximum) = false :=
        isOutside_eq_false.2 fun i => (h _ (flags_parindOf i)).2
      rw [this] at h2; cases h2
  · right
    rw [if_neg h1]
    refine ⟨fun h => h1 (List.all_eq_true.2 fun k hk => ?_), _, rfl⟩
    exact (h k (List.mem_filter.1 hk).2).1

/-- no parameter that is not sampled is marked as local, unless there is a single batch of data -/
def LocalFit (flags : Fin N → Bool) (specs : Fin N → ParamSpec F) (nbatch : ℕ) : Prop :=
  nbatch = 1 ∨ ∀ k, flags k = false → (specs k).loc = 0

theorem scanLocal_iff (specs : Fin N → ParamSpec F) (nb : ℕ) :
    (LocalFit flags specs nb ∧ scanLocal flags specs nb = .ok ()) ∨
    (¬ LocalFit flags specs nb ∧ scanLocal flags specs nb = .error .valueError) := by
  unfold scanLocal
  by_cases h : ((List.finRange N).any (fun k => !flags k && decide ((specs k).loc ≠ 0)) &&
      decide (nb ≠ 1)) = true
  · right
    rw [if_pos h]
    refine ⟨fun h' => ?_, rfl⟩
    simp only [Bool.and_eq_true, List.any_eq_true, decide_eq_true_eq, Bool.not_eq_true'] at h
    obtain ⟨⟨k, _, h1, h2⟩, h3⟩ := h
    rcases h' with h' | h'
    · exact h3 h'
    · exact h2 (h' k h1)
  · left
    rw [if_neg h]
    refine ⟨?_, rfl⟩
    by_contra h'
    unfold LocalFit at h'
    push Not at h'
    obtain ⟨h3, k, h1, h2⟩ := h'
    apply h
    simp only [Bool.and_eq_true, List.any_eq_true, decide_eq_true_eq, Bool.not_eq_true']
    exact ⟨⟨k, List.mem_finRange k, h1, h2⟩, h3⟩

/-- the covariance settings of the set-up of `o` -/
def covOf {flags : Fin N → Bool} (L : Lapack F) (o : Obj F flags m) : Except PyErr (CovState F (nS flags)) :=
  initCovState L o.opts.method o.opts.ntry.toNat o.extra.drscale o.extra.RDR o.opts.adascale o.opts.initqcovn
    (setupCovarianceMatrix o.extra.qcov (fun k => setupPriorSigma (o.specs k).priorSigma)
      fun k => (o.specs k).theta0) (parindOf flags)
    (fun i => setupAdapting (o.specs (parindOf flags i)).adapt (flags (parindOf flags i))
      != flags (parindOf flags i)) (atParind flags fun k => (o.specs k).theta0) o.covRDR

/-- the set-up succeeds exactly if the parts fit -/
theorem setup_iff {U : UserFuns F N (nS flags) m} {L : Lapack F} {o : Obj F flags m} {rng : σ}
    (hj : o.extra.jsonRestart = none) (hf : o.ms.s20Alias = false) (hN : o.ms.N = none) :
    (∃ r, setupSimulator U L o rng false = .ok r) ↔
      0 < o.opts.nsimu ∧ LimitsFit flags o.specs ∧
      LocalFit flags o.specs (o.ms.nbatch.getD o.data.nbatch) ∧
      (∃ ss, SosValue U (fun k => (o.specs k).theta0) ss) ∧
      SettingsFit o.ms o.data.n o.data.nbatch m ∧ ∃ c, covOf L o = .ok c := by
  obtain ⟨s1, k1, k2, k3⟩ := settings_pass (m := m) (n := o.data.n) (nbatch := o.data.nbatch) hf hN
  have hval : writeAt (parindOf flags) (atParind flags fun k => (o.specs k).theta0)
      (fun k => (o.specs k).theta0) = fun k => (o.specs k).theta0 :=
    writeAt_self (parindOf_injective flags) (fun _ => rfl)
  constructor
  · rintro ⟨⟨o1, I, s0⟩, h⟩
    obtain ⟨_, hpos, _, _, _, _, _, hjs, hini, _⟩ := setup_fresh h
    obtain rfl := hjs hj
    have hns : 0 < o1.opts.nsimu := by
      have := (setup_start h).1
      have hopt : o1.opts.nsimu = I.opts.nsimu := by rw [this.init.opts, ← this.opts]; rfl
      rw [hopt]; exact hpos
    refine ⟨hns, ?_⟩
    unfold initializeSimulation at hini
    dsimp only at hini
    rw [k1, ok_bind, k2] at hini
    obtain ⟨_, g1, hini⟩ := bind_ok.1 hini
    obtain ⟨_, g2, hini⟩ := bind_ok.1 hini
    obtain ⟨c, g3, hini⟩ := bind_ok.1 hini
    obtain ⟨⟨ss, w⟩, g4, hini⟩ := bind_ok.1 hini
    obtain ⟨s2, g5, hini⟩ := bind_ok.1 hini
    refine ⟨?_, ?_, ?_, k3.1 ⟨s2, g5⟩, c, g3⟩
    · rcases checkLimits_iff (flags := flags) o1.specs with h' | ⟨_, msg, h'⟩
      · exact h'.1
      · rw [h'] at g2; cases g2
    · rcases scanLocal_iff (flags := flags) o1.specs (o1.ms.nbatch.getD o1.data.nbatch) with h' | ⟨_, h'⟩
      · exact h'.1
      · rw [show ((some (o1.ms.nbatch.getD o1.data.nbatch)).getD 0) = o1.ms.nbatch.getD o1.data.nbatch from rfl,
          h'] at g1; cases g1
    · have := (evaluateSos_ok g4).1
      dsimp only at this
      rw [hval] at this
      exact ⟨ss, this⟩
  · rintro ⟨hns, hlim, hloc, ⟨ss, hss⟩, hset, c, hc⟩
    obtain ⟨s2, g5⟩ := k3.2 hset
    obtain ⟨M, g6⟩ := errModel_exists k1 g5
    have g2 : checkLimits flags o.specs = .ok () := by
      rcases checkLimits_iff (flags := flags) o.specs with h' | ⟨h', _⟩
      · exact h'.2
      · exact absurd hlim h'
    have g1 : scanLocal flags o.specs (o.ms.nbatch.getD o.data.nbatch) = .ok () := by
      rcases scanLocal_iff (flags := flags) o.specs (o.ms.nbatch.getD o.data.nbatch) with h' | ⟨h', _⟩
      · exact h'.2
      · exact absurd hloc h'
    obtain ⟨w', g4⟩ := evaluateSos_exists (σ := σ) (P :=
      { parind := parindOf flags
        lower := atParind flags fun k => (o.specs k).minimum
        upper := atParind flags fun k => (o.specs k).maximum
        style1 := U.style1, sosFun := U.sosFun
        prior := fun th => U.priorFun th
          (atParind flags fun k => setupPriorMu (o.specs k).priorMu (o.specs k).theta0)
          (atParind flags fun k => setupPriorSigma (o.specs k).priorSigma) })
      (theta := atParind flags fun k => (o.specs k).theta0) (w := ⟨rng, fun k => (o.specs k).theta0, []⟩)
      (ss := ss) (by dsimp only; rw [hval]; exact hss)
    have key : ∃ I, initializeSimulation U L o rng = .ok I ∧ I.opts.nsimu = o.opts.nsimu := by
      unfold initializeSimulation
      dsimp only
      rw [k1, ok_bind, k2]
      have g1' : scanLocal flags o.specs ((some (o.ms.nbatch.getD o.data.nbatch)).getD 0) = .ok () := g1
      rw [g1', ok_bind, g2, ok_bind]
      have hc' : initCovState L (checkDependentSimulationOptions o.opts o.ms.N0.isSome).method
        (checkDependentSimulationOptions o.opts o.ms.N0.isSome).ntry.toNat o.extra.drscale o.extra.RDR
        (checkDependentSimulationOptions o.opts o.ms.N0.isSome).adascale
        (checkDependentSimulationOptions o.opts o.ms.N0.isSome).initqcovn
        (setupCovarianceMatrix o.extra.qcov (fun k => setupPriorSigma (o.specs k).priorSigma)
          fun k => (o.specs k).theta0) (parindOf flags)
        (fun i => setupAdapting (o.specs (parindOf flags i)).adapt (flags (parindOf flags i))
          != flags (parindOf flags i)) (atParind flags fun k => (o.specs k).theta0) o.covRDR = .ok c := hc
      rw [hc', ok_bind, g4, ok_bind]
      dsimp only
      rw [g5, ok_bind, g6, ok_bind]
      exact ⟨_, rfl, rfl⟩
    obtain ⟨I, hI, e⟩ := key
    unfold setupSimulator
    rw [if_neg (by simp)]
    have hl : loadRestart o = .ok o := by unfold loadRestart; rw [hj]
    rw [hl, ok_bind, hI, ok_bind, if_neg (by omega)]
    have hz : ∀ k, 0 < (zeroRows (F := F) (n := k) I.opts.nsimu.toNat).length := by
      intro k; simp [zeroRows]; omega
    have : ∃ r, initializeChains I.opts.nsimu.toNat I.opts.updatesigma I.initialSet I.errModel.sigma2 = .ok r := by
      have hs : ∀ {α : Type} {l : List α} (_ : 0 < l.length) (v : α), ∃ l', pySet l 0 v = .ok l' := by
        intro α l hl v
        unfold pySet
        rw [if_pos hl]
        exact ⟨_, rfl⟩
      unfold initializeChains
      obtain ⟨a, ha⟩ := hs (hz _) I.initialSet.theta
      obtain ⟨b, hb⟩ := hs (hz _) I.initialSet.ss
      rw [ha, ok_bind, hb, ok_bind]
      split
      · obtain ⟨d, hd⟩ := hs (hz _) I.errModel.sigma2
        rw [hd, ok_bind]; exact ⟨_, rfl⟩
      · exact ⟨_, rfl⟩
    obtain ⟨⟨a, b, d⟩, hr⟩ := this
    rw [hr, ok_bind]
    exact ⟨_, rfl⟩

/-! ### C77 -/

theorem run_of_setup_error {U : UserFuns F N (nS flags) m} {G : Rng σ F} {L : Lapack F} {fuel : ℕ}
    {o : Obj F flags m} {rng : σ} {e : PyErr} (hj : o.extra.jsonRestart = none)
    (h : initializeSimulation U L o rng = .error e) : runSimulation U G L fuel o rng false = .error e := by
  have hl : loadRestart o = .ok o := by unfold loadRestart; rw [hj]
  unfold runSimulation setupSimulator
  rw [if_neg (by simp), hl, ok_bind, h]
  rfl

/-- **C77.** A sampled parameter whose limits are not in order, or whose initial value compares below
the lower or above the upper limit, makes `run_simulation` exit, with a message that does not depend on
the model, the prior, the random numbers or the linear algebra: none of them is called. -/
theorem C77_limits_refused {o : Obj F flags m} (hj : o.extra.jsonRestart = none) (hN : o.ms.N = none)
    (hf : o.ms.s20Alias = false) (hloc : LocalFit flags o.specs (o.ms.nbatch.getD o.data.nbatch))
    {k : Fin N} (hk : flags k = true)
    (hbad : PyFloat.le (o.specs k).minimum (o.specs k).maximum = false ∨
      PyFloat.lt (o.specs k).theta0 (o.specs k).minimum = true ∨
      PyFloat.lt (o.specs k).maximum (o.specs k).theta0 = true) :
    ∃ msg, ∀ (U : UserFuns F N (nS flags) m) (G : Rng σ F) (L : Lapack F) (fuel : ℕ) (rng : σ),
      runSimulation U G L fuel o rng false = .error (.sysExit msg) := by
  obtain ⟨s1, k1, k2, _⟩ := settings_pass (m := m) (n := o.data.n) (nbatch := o.data.nbatch) hf hN
  obtain ⟨msg, h2⟩ : ∃ msg, checkLimits flags o.specs = .error (.sysExit msg) := by
    rcases checkLimits_iff (flags := flags) o.specs with ⟨h, _⟩ | ⟨_, h⟩
    · obtain ⟨a, b, c⟩ := h k hk
      rcases hbad with h' | h' | h'
      · rw [a] at h'; cases h'
      · rw [b] at h'; cases h'
      · rw [c] at h'; cases h'
    · exact h
  have h1 : scanLocal flags o.specs ((some (o.ms.nbatch.getD o.data.nbatch)).getD 0) = .ok () := by
    rcases scanLocal_iff (flags := flags) o.specs (o.ms.nbatch.getD o.data.nbatch) with h | ⟨h, _⟩
    · exact h.2
    · exact absurd hloc h
  refine ⟨msg, fun U G L fuel rng => run_of_setup_error hj ?_⟩
  unfold initializeSimulation
  dsimp only
  rw [k1, ok_bind, k2, h1, ok_bind, h2]
  rfl

/-- **C77**, local parameters: with more than one batch of data (or none) a parameter that is marked as
local but not sampled raises a `ValueError`, again before the model is called. -/
theorem C77_local_refused {o : Obj F flags m} (hj : o.extra.jsonRestart = none) (hN : o.ms.N = none)
    (hf : o.ms.s20Alias = false) (hb : o.ms.nbatch.getD o.data.nbatch ≠ 1)
    {k : Fin N} (hk : flags k = false) (hl : (o.specs k).loc ≠ 0) :
    ∀ (U : UserFuns F N (nS flags) m) (G : Rng σ F) (L : Lapack F) (fuel : ℕ) (rng : σ),
      runSimulation U G L fuel o rng false = .error .valueError := by
  obtain ⟨s1, k1, k2, _⟩ := settings_pass (m := m) (n := o.data.n) (nbatch := o.data.nbatch) hf hN
  intro U G L fuel rng
  refine run_of_setup_error hj ?_
  have h1 : scanLocal flags o.specs ((some (o.ms.nbatch.getD o.data.nbatch)).getD 0) = .error .valueError := by
    rcases scanLocal_iff (flags := flags) o.specs (o.ms.nbatch.getD o.data.nbatch) with ⟨h, _⟩ | ⟨_, h⟩
    · rcases h with h | h
      · exact absurd h hb
      · exact absurd (h k hk) hl
    · exact h
  unfold initializeSimulation
  dsimp only
  rw [k1, ok_bind, k2, h1]
  rfl

/-- **C77**, converse: whatever has been run from scratch was a problem that fits — at least one
simulation, limits in order with the initial values not outside, settings of the right lengths, and a
sum-of-squares function that has a value at the initial point. -/
theorem C77_accepted {U : UserFuns F N (nS flags) m} {G : Rng σ F} {L : Lapack F} {fuel : ℕ}
    {o : Obj F flags m} {rng : σ} {out : RunOut F σ flags m} (hj : o.extra.jsonRestart = none)
    (hN : o.ms.N = none) (hf : o.ms.s20Alias = false)
    (h : runSimulation U G L fuel o rng false = .ok out) :
    0 < o.opts.nsimu ∧
    (∀ k, flags k = true → PyFloat.le (o.specs k).minimum (o.specs k).maximum = true ∧
      PyFloat.lt (o.specs k).theta0 (o.specs k).minimum = false ∧
      PyFloat.lt (o.specs k).maximum (o.specs k).theta0 = false) ∧
    (o.ms.nbatch.getD o.data.nbatch = 1 ∨ ∀ k, flags k = false → (o.specs k).loc = 0) ∧
    (∃ ss, SosValue U (fun k => (o.specs k).theta0) ss) ∧
    SettingsFit o.ms o.data.n o.data.nbatch m := by
  obtain ⟨o1, I, s0, h1, _⟩ := runSimulation_ok h
  obtain ⟨a, b, c, d, e, _⟩ := (setup_iff hj hf hN).1 ⟨_, h1⟩
  exact ⟨a, b, c, d, e⟩

/-- **C77**, settings: with limits that fit, settings of a wrong length make the set-up fail. -/
theorem C77_settings_refused {U : UserFuns F N (nS flags) m} {G : Rng σ F} {L : Lapack F} {fuel : ℕ}
    {o : Obj F flags m} {rng : σ} (hj : o.extra.jsonRestart = none)
    (hN : o.ms.N = none) (hf : o.ms.s20Alias = false)
    (hbad : ¬ SettingsFit o.ms o.data.n o.data.nbatch m) :
    ∃ e, runSimulation U G L fuel o rng false = .error e := by
  cases h : runSimulation U G L fuel o rng false with
  | error e => exact ⟨e, rfl⟩
  | ok out => exact absurd (C77_accepted hj hN hf h).2.2.2.2 hbad

/-- the hypotheses of `C77_limits_refused` can be met: initial value 20 above the upper limit -/
example : ∃ o : Obj ℚ Toy.flags 1, o.extra.jsonRestart = none ∧ o.ms.N = none ∧ o.ms.s20Alias = false ∧
    LocalFit Toy.flags o.specs (o.ms.nbatch.getD o.data.nbatch) ∧
    ∃ k, Toy.flags k = true ∧ PyFloat.lt (o.specs k).maximum (o.specs k).theta0 = true :=
  ⟨{ Toy.obj .mh 5 with specs := fun k => { (Toy.obj .mh 5).specs k with theta0 := 1000 } },
    by decide, by decide, by decide, .inl (by decide), 0, by decide +kernel, by decide +kernel⟩

/-- the hypotheses of `C77_local_refused` can be met: two data sets -/
example : ∃ o : Obj ℚ (fun k : Fin 2 => k == 0) 1, o.extra.jsonRestart = none ∧ o.ms.N = none ∧
    o.ms.s20Alias = false ∧ o.ms.nbatch.getD o.data.nbatch ≠ 1 ∧ (o.specs 1).loc ≠ 0 :=
  ⟨newObj (fun _ => ⟨"a", 0, -1, 1, 0, 1, true, 1, true⟩) (Toy.obj .mh 5).opts
      ⟨1, [1], 1, 1, 1, none, none, none⟩
      (defineModelSettings none none none none none)
      (addDataSet (addDataSet {} (.array [5]) (.array [5])) (.array [5]) (.array [5])),
    by decide, by decide, by decide, by decide, by decide⟩

/-- the hypotheses of `C77_accepted` can be met -/
example : ∃ out, runSimulation Toy.user Toy.rng Toy.lapack 100 (Toy.obj .dram 5) 0 false = .ok out ∧
    (Toy.obj .dram 5).extra.jsonRestart = none ∧ (Toy.obj .dram 5).ms.N = none ∧
    (Toy.obj .dram 5).ms.s20Alias = false := by
  obtain ⟨out, h⟩ := exists_ok (x := Toy.run .dram 5) (by decide +kernel)
  exact ⟨out, h, by decide, by decide, by decide⟩

end general

section exact
open Matrix
variable {σ : Type} {N m n : ℕ} {flags : Fin N → Bool}

theorem rdrSetupLoop_exists {L : Lapack XR} (hL : ExactLapack L) {ds : List ℝ}
    (h0 : ∀ d ∈ ds, d ≠ 0) (hne : ds ≠ []) {R : Matrix (Fin n) (Fin n) ℝ} (hR : IsUnit R) :
    ∀ k a, ∃ r, rdrSetupLoop L (ds.map .fin) k (a + 1) (finMx ((stageScale ds a)⁻¹ • R)) = .ok r
  | 0, _ => ⟨_, rfl⟩
  | k + 1, a => by
    have hs : ∃ s, drscaleAt (ds.map XR.fin) (a + 1) = .ok s := by
      unfold drscaleAt pyGet
      have hl : min (a + 1) (ds.map XR.fin).length - 1 < (ds.map XR.fin).length := by
        have : 0 < ds.length := List.length_pos_iff.2 hne
        rw [List.length_map]; omega
      rw [List.getElem?_eq_getElem hl]
      exact ⟨_, rfl⟩
    obtain ⟨s, hs⟩ := hs
    have hu : IsUnit ((stageScale ds (a + 1))⁻¹ • R) := by
      rw [Matrix.isUnit_iff_isUnit_det] at hR ⊢
      rw [Matrix.det_smul]
      exact (IsUnit.mk0 _ (pow_ne_zero _ (inv_ne_zero (stageScale_ne_zero h0 _)))).mul hR
    obtain ⟨b, e, _⟩ := hL.inv_some _ hu
    obtain ⟨r, hr⟩ := rdrSetupLoop_exists hL h0 hne hR k (a + 1)
    unfold rdrSetupLoop
    rw [hs, ok_bind, drscaleAt_fin hs]
    dsimp only
    rw [scale_next h0, e]
    change ∃ r, (Except.ok (finMx b) >>= _) = _
    rw [ok_bind, hr, ok_bind]
    exact ⟨_, rfl⟩

theorem rdrInverses_exists {L : Lapack XR} (hL : ExactLapack L) {l : List (Mat XR n)}
    (hl : ∀ M ∈ l, ∃ A : Matrix (Fin n) (Fin n) ℝ, M = finMx A ∧ IsUnit A) :
    ∀ k a, a + k ≤ l.length → ∃ r, rdrInverses L l k a = .ok r
  | 0, _, _ => ⟨_, rfl⟩
  | k + 1, a, h => by
    obtain ⟨r, hr⟩ := rdrInverses_exists hL hl k (a + 1) (by omega)
    obtain ⟨A, e1, e2⟩ := hl l[a] (List.getElem_mem _)
    obtain ⟨b, e3, _⟩ := hL.inv_some _ e2
    unfold rdrInverses pyGet
    rw [List.getElem?_eq_getElem (by omega)]
    change ∃ r, (Except.ok l[a] >>= _) = _
    rw [ok_bind, e1, e3]
    change ∃ r, (Except.ok (finMx b) >>= _) = _
    rw [ok_bind, hr, ok_bind]
    exact ⟨_, rfl⟩

/-- The user's proposal covariance for `N` parameters: not given, or positive variances, or a positive
definite matrix. -/
def GoodCovariance (N : ℕ) : Option (Qcov XR) → Prop
  | none => True
  | some q => (∃ w : Fin N → ℝ, q = .variances N (finVec w) ∧ ∀ k, 0 < w k) ∨
      ∃ Q : Matrix (Fin N) (Fin N) ℝ, q = .matrix N (finMx Q) ∧ Q.PosDef

theorem setupRMatrix_exists {L : Lapack XR} (hL : ExactLapack L) {q : Option (Qcov XR)} (hq : GoodCovariance N q)
    {parind : Fin n → Fin N} (hinj : Function.Injective parind) (sig : Vec XR N) (t : Fin N → ℝ) :
    ∃ R Q, setupRMatrix L (setupCovarianceMatrix q sig (finVec t)) parind = .ok (finMx R, finMx Q) ∧
      Q.PosDef ∧ IsUnit R := by
  have hix : ∀ A : Matrix (Fin N) (Fin N) ℝ,
      ixRestrict (finMx A) parind = .ok (finMx (A.submatrix parind parind)) := by
    intro A
    unfold ixRestrict
    rw [dif_pos fun i => (parind i).2]
    rfl
  have hdiag : ∀ w : Fin N → ℝ, (diagflat (finVec w) : Mat XR N) = finMx (diagonal w) := by
    intro w
    funext i j
    unfold diagflat finVec finMx finMat
    by_cases h : i = j
    · subst h; rw [if_pos rfl, diagonal_apply_eq]
    · rw [if_neg h, diagonal_apply_ne _ h, XR.lit_eq, Rat.cast_zero]
  have hpos : ∀ w : Fin N → ℝ, (∀ k, 0 < w k) → (diagonal w).PosDef := fun w hw =>
    Matrix.PosDef.diagonal hw
  have key : ∀ {q' : Qcov XR} {A : Mat XR n} {Q : Matrix (Fin n) (Fin n) ℝ}, Q.PosDef →
      setupRMatrix L q' parind = .ok (A, finMx Q) →
      ∃ R Q, setupRMatrix L q' parind = .ok (finMx R, finMx Q) ∧ Q.PosDef ∧ IsUnit R := by
    intro q' A Q hQ h
    obtain ⟨r, rfl, e⟩ := setupRMatrix_exact hL hinj hQ h
    exact ⟨r, Q, h, hQ, isUnit_of_gram e hQ.isUnit⟩
  have hmat : ∀ Q : Matrix (Fin N) (Fin N) ℝ, Q.PosDef →
      ∃ R Q', setupRMatrix L (.matrix N (finMx Q)) parind = .ok (finMx R, finMx Q') ∧ Q'.PosDef ∧ IsUnit R := by
    intro Q hQ
    have hQ' := hQ.submatrix hinj
    have : ∃ A, setupRMatrix L (.matrix N (finMx Q)) parind = .ok (A, finMx (Q.submatrix parind parind)) := by
      unfold setupRMatrix
      dsimp only
      rw [hix, ok_bind]
      split
      · exact ⟨_, rfl⟩
      · split
        · exact ⟨_, rfl⟩
        · obtain ⟨c, e, _⟩ := hL.chol_some _ hQ'
          rw [e]
          exact ⟨_, rfl⟩
    obtain ⟨A, h⟩ := this
    exact key hQ' h
  cases q with
  | none =>
    unfold setupCovarianceMatrix
    dsimp only
    have hv := fun k => C21_default_variance (sig k) (t k)
    choose v hv1 hv2 _ using hv
    have : (diagflat fun i => defaultVariance (sig i) (finVec t i)) = finMx (diagonal v) := by
      rw [← hdiag v]
      congr 1
      funext i
      exact hv2 i
    rw [this]
    exact hmat _ (hpos v hv1)
  | some q =>
    rcases hq with ⟨w, rfl, hw⟩ | ⟨Q, rfl, hQ⟩
    · have hQ' := (hpos w hw).submatrix hinj
      refine key (A := fun i j => PyFloat.sqrt (finMx ((diagonal w).submatrix parind parind) i j)) hQ' ?_
      unfold setupCovarianceMatrix setupRMatrix
      dsimp only
      rw [hdiag, hix, ok_bind]
    · exact hmat Q hQ

theorem covOf_exists {G : Rng σ XR} {L : Lapack XR} {o : Obj XR flags m} (hx : ExactInputs G L o)
    (hn : 0 < nS flags) (hq : GoodCovariance N o.extra.qcov) (hd : o.extra.drscale ≠ [])
    (hR : ∀ l, o.extra.RDR = some l → l ≠ [] ∧ o.opts.ntry ≤ l.length)
    {t : Fin N → ℝ} (ht : ∀ k, (o.specs k).theta0 = .fin (t k)) :
    ∃ c Q, covOf L o = .ok c ∧ c.qcov = finMx Q ∧ Q.PosDef := by
  obtain ⟨s, hs⟩ := hx.scale
  have h0 : (fun k => (o.specs k).theta0) = finVec t := funext ht
  obtain ⟨R, Q, hRQ, hpd, hu⟩ := setupRMatrix_exists hx.lapack hq (parindOf_injective flags)
    (fun k => setupPriorSigma (o.specs k).priorSigma) t
  have hsc : ∃ x, checkAdascale o.opts.adascale (nS flags) = .ok x := by
    unfold checkAdascale
    rcases hs with ⟨e, _⟩ | ⟨e, hp⟩
    · rw [e]
      dsimp only
      rw [if_neg (by omega)]
      exact ⟨_, rfl⟩
    · rw [e]
      dsimp only
      rw [if_neg (by simp [hp])]
      exact ⟨_, rfl⟩
  obtain ⟨x, hsc⟩ := hsc
  obtain ⟨ds, e1, e2⟩ := hx.drscale
  have hrd : ∃ r, setupRDRMatrix L (finMx R) o.opts.ntry.toNat o.extra.drscale o.extra.RDR = .ok r := by
    unfold setupRDRMatrix
    cases hr : o.extra.RDR with
    | none =>
      obtain ⟨b, e, _⟩ := hx.lapack.inv_some _ hu
      obtain ⟨r, hr⟩ := rdrSetupLoop_exists hx.lapack e2 (fun h => hd (by rw [e1, h]; rfl)) hu
        (o.opts.ntry.toNat - 1) 0
      dsimp only
      rw [e]
      change ∃ r, (Except.ok (finMx b) >>= _) = _
      rw [ok_bind, e1]
      have h1 : (stageScale ds 0)⁻¹ • R = R := by simp [stageScale]
      rw [h1] at hr
      rw [show (0 + 1 : ℕ) = 1 from rfl] at hr
      rw [hr, ok_bind]
      exact ⟨_, rfl⟩
    | some l =>
      obtain ⟨hl, hlen⟩ := hR l hr
      obtain ⟨r, hr'⟩ := rdrInverses_exists hx.lapack (hx.RDR l hr) o.opts.ntry.toNat 0 (by omega)
      dsimp only
      rw [hr', ok_bind]
      unfold pyGet
      rw [List.getElem?_eq_getElem (List.length_pos_iff.2 hl)]
      exact ⟨_, rfl⟩
  obtain ⟨⟨R', l, il⟩, hrd⟩ := hrd
  unfold covOf initCovState
  rw [hsc, ok_bind, h0, hRQ, ok_bind]
  dsimp only
  split
  · rw [hrd, ok_bind]
    exact ⟨_, Q, rfl, rfl, hpd⟩
  · exact ⟨_, Q, rfl, rfl, hpd⟩

/-- A problem as the documentation asks for it, for `MCMC` objects that have not been run: at least two
simulations and one sampled parameter; finite initial values, those of the sampled parameters within
their (possibly infinite) limits; no parameter that is not sampled marked as local (or one batch of
data); a sum-of-squares function that returns a value everywhere; data; error-variance settings of the
right length and no number of observations of the user's own; a proposal covariance that is positive
definite, or none; enough factors for delayed rejection, or none; delayed rejection only with the methods
that set it up. -/
structure ValidProblem (U : UserFuns XR N (nS flags) m) (o : Obj XR flags m) : Prop where
  nsimu : 1 < o.opts.nsimu
  sampled : 0 < nS flags
  initial : ∀ k, ∃ t : ℝ, (o.specs k).theta0 = .fin t
  limits : ∀ k, flags k = true → PyFloat.le (o.specs k).minimum (o.specs k).theta0 = true ∧
    PyFloat.le (o.specs k).theta0 (o.specs k).maximum = true
  localFit : LocalFit flags o.specs (o.ms.nbatch.getD o.data.nbatch)
  sos : Computes U.style1 U.sosFun
  data : o.data.n ≠ []
  settings : SettingsFit o.ms o.data.n o.data.nbatch m
  settingsFresh : o.ms.s20Alias = false
  observations : o.ms.N = none
  covariance : GoodCovariance N o.extra.qcov
  drscale : o.extra.drscale ≠ []
  factors : ∀ l, o.extra.RDR = some l → l ≠ [] ∧ o.opts.ntry ≤ l.length
  delayed : 1 < o.opts.ntry → SupportsDR o.opts o.extra.drscale
  noRestart : o.extra.jsonRestart = none

theorem limitsFit_of {specs : Fin N → ParamSpec XR} (h0 : ∀ k, ∃ t : ℝ, (specs k).theta0 = .fin t)
    (h : ∀ k, flags k = true → PyFloat.le (specs k).minimum (specs k).theta0 = true ∧
      PyFloat.le (specs k).theta0 (specs k).maximum = true) : LimitsFit flags specs := by
  have key : ∀ (a b : XR) (t : ℝ), PyFloat.le a (.fin t) = true → PyFloat.le (.fin t) b = true →
      PyFloat.le a b = true ∧ PyFloat.lt (.fin t) a = false ∧ PyFloat.lt b (.fin t) = false := by
    intro a b t h1 h2
    cases a <;> cases b <;>
      simp_all [PyFloat.le, PyFloat.lt, XR.lt, XR.beq, ← le_iff_lt_or_eq]
    exact le_trans h1 h2
  intro k hk
  obtain ⟨t, ht⟩ := h0 k
  have := h k hk
  rw [ht] at this ⊢
  exact key _ _ t this.1 this.2

theorem valid_setup {U : UserFuns XR N (nS flags) m} {G : Rng σ XR} {L : Lapack XR} {o : Obj XR flags m}
    (hx : ExactInputs G L o) (hv : ValidProblem U o) (rng : σ) :
    ∃ I s0 t Q, setupSimulator U L o rng false = .ok (o, I, s0) ∧ I.initialSet.theta = finVec t ∧
      I.cov.qcov = finMx Q ∧ Q.PosDef := by
  have h0 := hv.initial
  choose t ht using h0
  obtain ⟨c, Q, hc, hQ, hpd⟩ := covOf_exists hx hv.sampled hv.covariance hv.drscale hv.factors ht
  have hss : ∃ ss, SosValue U (fun k => (o.specs k).theta0) ss := by
    have := hv.sos fun k => (o.specs k).theta0
    unfold SosValue
    split at this
    · rename_i hs
      simp only [if_pos hs]
      rcases this with ⟨ss, h⟩ | ⟨h1, ss, h2⟩
      · exact ⟨ss, .inl h⟩
      · exact ⟨ss, .inr ⟨h1, h2⟩⟩
    · rename_i hs
      simp only [if_neg hs]
      exact this
  obtain ⟨⟨o1, I, s0⟩, h⟩ := (setup_iff (U := U) (L := L) (rng := rng) hv.noRestart hv.settingsFresh
    hv.observations).2 ⟨by have := hv.nsimu; omega, limitsFit_of hv.initial hv.limits, hv.localFit, hss,
      hv.settings, c, hc⟩
  obtain ⟨hst, _, _, _, _, _, _, hj, hini, _⟩ := setup_fresh h
  obtain rfl := hj hv.noRestart
  refine ⟨I, s0, fun i => t (parindOf flags i), Q, h, ?_, ?_, hpd⟩
  · rw [hst.init.theta]
    funext i
    exact ht _
  · have := initializeSimulation_cov hini
    rw [hst.init.opts, hst.init.theta] at this
    have hna : noAdaptOf flags o1.specs = fun i => setupAdapting (o1.specs (parindOf flags i)).adapt
        (flags (parindOf flags i)) != flags (parindOf flags i) := by
      funext i
      simp [noAdaptOf, setupAdapting, flags_parindOf]
    rw [hna] at this
    have : covOf L o1 = .ok I.cov := this
    rw [hc] at this
    cases this
    exact hQ

/-- **C76.** Every valid problem runs to the end in exact arithmetic: `run_simulation` returns, and all
rows of the chain are finite.  The exception is the one of `C65`: when the error variances are sampled,
the rejection loop of the gamma generator may go on for longer than the bound `fuel` of the model. -/
theorem C76_valid_problem_runs {U : UserFuns XR N (nS flags) m} {G : Rng σ XR} {L : Lapack XR} {fuel : ℕ}
    {o : Obj XR flags m} (hx : ExactInputs G L o) (hv : ValidProblem U o) (rng : σ) :
    (∃ out, runSimulation U G L fuel o rng false = .ok out ∧
      ∀ row ∈ out.results.chain, ∃ r, row = finVec r) ∨
    (runSimulation U G L fuel o rng false = .error .outOfFuel ∧
      (o.opts.updatesigma = true ∨ o.ms.N0.isSome)) := by
  obtain ⟨I, s0, t, Q, h, ht, hQ, hpd⟩ := valid_setup hx hv rng
  rcases C65_exact_run_returns (fuel := fuel) hx h hv.nsimu hv.sampled hv.sos hv.delayed hv.data ht hQ hpd with
    ⟨out, h1, h2, _⟩ | ⟨h1, h2, _⟩
  · exact .inl ⟨out, h1, h2⟩
  · refine .inr ⟨h1, ?_⟩
    rw [(setup_start h).1.init.opts] at h2
    simp only [checkDependentSimulationOptions] at h2
    split at h2
    · rename_i hN; exact .inr hN
    · exact .inl h2

/-- **C76**, with fixed error variances there is no exception. -/
theorem C76_fixed_variance {U : UserFuns XR N (nS flags) m} {G : Rng σ XR} {L : Lapack XR} {fuel : ℕ}
    {o : Obj XR flags m} (hx : ExactInputs G L o) (hv : ValidProblem U o) (rng : σ)
    (hu : o.opts.updatesigma = false) (hN : o.ms.N0 = none) :
    ∃ out, runSimulation U G L fuel o rng false = .ok out ∧
      ∀ row ∈ out.results.chain, ∃ r, row = finVec r := by
  rcases C76_valid_problem_runs (fuel := fuel) hx hv rng with h | ⟨_, h | h⟩
  · exact h
  · rw [hu] at h; cases h
  · rw [hN] at h; cases h

/-- the options `define_simulation_options` sets by default, `settings/SimulationOptions.py:30-60` -/
noncomputable def defaultExtra (n : ℕ) : ExtraOpts XR n :=
  ⟨.fin 10, [.fin 5, .fin 4, .fin 3], .fin (234/1000), .fin (7/10), .fin (1/10^8), none, none, none⟩

/-- the documented use is a valid problem -/
theorem default_valid {U : UserFuns XR N (nS flags) m} {G : Rng σ XR} {L : Lapack XR}
    (hL : ExactLapack L) (hG : ∀ s, ∃ z, (G.randn (nS flags) s).1 = finVec z)
    (specs : Fin N → ParamSpec XR) (hn : 0 < nS flags)
    (h0 : ∀ k, ∃ t : ℝ, (specs k).theta0 = .fin t)
    (hlim : ∀ k, flags k = true → PyFloat.le (specs k).minimum (specs k).theta0 = true ∧
      PyFloat.le (specs k).theta0 (specs k).maximum = true)
    (d : Data) (hd : d.n ≠ []) (hm : d.n.length = 1 ∨ m ≤ d.n.length)
    (hloc : LocalFit flags specs d.nbatch) (hsos : Computes U.style1 U.sosFun)
    (nsimu : ℕ) (hns : 2 ≤ nsimu) (meth : Method) (hmeth : meth ≠ .ram) :
    ExactInputs (m := m) G L (newObj specs (defineSimulationOptions { nsimu := nsimu, method := meth })
      (defaultExtra (nS flags)) (defineModelSettings none none none none none) d) ∧
    ValidProblem U (newObj specs (defineSimulationOptions { nsimu := nsimu, method := meth })
      (defaultExtra (nS flags)) (defineModelSettings none none none none none) d) := by
  have hR : ∀ l, (newObj (m := m) specs (defineSimulationOptions { nsimu := nsimu, method := meth })
      (defaultExtra (nS flags)) (defineModelSettings none none none none none) d).extra.RDR = some l → False := nofun
  refine ⟨⟨hL, hG, ⟨_, rfl⟩, ⟨_, rfl, by norm_num⟩, ⟨[5, 4, 3], rfl, by simp⟩, ?_, .inl rfl,
    ⟨_, .inl ⟨?_, rfl⟩⟩, fun l h => (hR l h).elim⟩, ⟨?_, hn, h0, hlim, hloc, hsos, hd, ⟨?_, ?_, ?_, .inl ?_, ?_⟩,
    rfl, rfl, ?_, ?_, fun l h => (hR l h).elim, ?_, rfl⟩⟩
  · cases meth <;> first | rfl | exact absurd rfl hmeth
  · change (if meth = .ram then _ else _) = _
    rw [if_neg hmeth]
  · change (1 : ℤ) < nsimu
    omega
  · intro v h; cases h
  · intro v h; cases h
  · intro h; cases h
  · exact ⟨.nan, by simp [newObj, defineModelSettings]; rfl, rfl⟩
  · rcases hm with h | h
    · exact .inl h.le
    · exact .inr h
  · trivial
  · change [XR.fin 5, XR.fin 4, XR.fin 3] ≠ []
    simp
  · intro hnt
    have hd3 : (defaultExtra (nS flags)).drscale ≠ [] := by
      change [XR.fin 5, XR.fin 4, XR.fin 3] ≠ []
      simp
    cases meth with
    | mh => exact absurd hnt (by change ¬ (1 : ℤ) < 1; decide)
    | am => exact absurd hnt (by change ¬ (1 : ℤ) < 1; decide)
    | dr => exact ⟨.inl rfl, rfl, fun h => absurd h (by change ¬ (0 : ℤ) < 0; decide)⟩
    | dram => exact ⟨.inr rfl, rfl, fun _ => ⟨by change (0 : ℤ) ≤ 100; decide, hd3⟩⟩
    | ram => exact absurd rfl hmeth

/-- **C76**, the documented use: parameters with finite initial values within their limits, data, a
sum-of-squares function, and no options but the number of simulations (at least two) and one of the
methods `mh`, `am`, `dr`, `dram`.  The run returns, for all of these. -/
theorem C76_default_run {U : UserFuns XR N (nS flags) m} {G : Rng σ XR} {L : Lapack XR} {fuel : ℕ}
    (hL : ExactLapack L) (hG : ∀ s, ∃ z, (G.randn (nS flags) s).1 = finVec z)
    (specs : Fin N → ParamSpec XR) (hn : 0 < nS flags)
    (h0 : ∀ k, ∃ t : ℝ, (specs k).theta0 = .fin t)
    (hlim : ∀ k, flags k = true → PyFloat.le (specs k).minimum (specs k).theta0 = true ∧
      PyFloat.le (specs k).theta0 (specs k).maximum = true)
    (d : Data) (hd : d.n ≠ []) (hm : d.n.length = 1 ∨ m ≤ d.n.length)
    (hloc : LocalFit flags specs d.nbatch) (hsos : Computes U.style1 U.sosFun)
    (nsimu : ℕ) (hns : 2 ≤ nsimu) (meth : Method) (hmeth : meth ≠ .ram) (rng : σ) :
    ∃ out, runSimulation U G L fuel (newObj specs
        (defineSimulationOptions { nsimu := nsimu, method := meth }) (defaultExtra (nS flags))
        (defineModelSettings none none none none none) d) rng false = .ok out ∧
      ∀ row ∈ out.results.chain, ∃ r, row = finVec r := by
  obtain ⟨h1, h2⟩ := default_valid (U := U) hL hG specs hn h0 hlim d hd hm hloc hsos nsimu hns meth hmeth
  exact C76_fixed_variance h1 h2 rng rfl rfl

/-- the hypotheses of `C76_valid_problem_runs` can be met, with delayed rejection and adaptation -/
example : ExactInputs XRun.rng exactLapack (XRun.obj XRun.dramArgs) ∧
    ValidProblem XRun.user (XRun.obj XRun.dramArgs) ∧
    (XRun.obj XRun.dramArgs).opts.updatesigma = false ∧ (XRun.obj XRun.dramArgs).ms.N0 = none := by
  refine ⟨XRun.dram_inputs, ⟨show (1 : ℤ) < 3 by decide, by decide, fun _ => ⟨0, rfl⟩, fun _ _ => ?_, .inl rfl,
    fun v => by simp [XRun.user], show XRun.data.n ≠ [] by decide,
    ⟨fun v hv => ?_, nofun, nofun, .inr (.inl rfl), .inl (by decide)⟩, rfl, rfl, ?_, ?_, nofun,
    fun _ => XRun.dram_supports, rfl⟩, rfl, rfl⟩
  · simp [XRun.obj, newObj, XRun.specs]
  · cases hv; exact .inl rfl
  · exact .inl ⟨fun _ => 1, rfl, fun _ => one_pos⟩
  · change [XR.fin 5] ≠ []
    simp

/-- the hypotheses of `C76_default_run` can be met: infinite limits, one data set -/
example : ∃ specs : Fin 1 → ParamSpec XR, ExactLapack exactLapack ∧
    (∀ s, ∃ z, (XRun.rng.randn (nS XRun.flags) s).1 = finVec z) ∧ 0 < nS XRun.flags ∧
    (∀ k, ∃ t : ℝ, (specs k).theta0 = .fin t) ∧
    (∀ k, XRun.flags k = true → PyFloat.le (specs k).minimum (specs k).theta0 = true ∧
      PyFloat.le (specs k).theta0 (specs k).maximum = true) ∧ XRun.data.n ≠ [] ∧ XRun.data.n.length = 1 ∧
    LocalFit XRun.flags specs XRun.data.nbatch ∧ Computes XRun.user.style1 XRun.user.sosFun :=
  ⟨fun _ => ⟨"a", .fin 3, .ninf, .pinf, .fin 0, .pinf, true, 0, true⟩, exactLapack_ok,
    fun _ => ⟨fun _ => 1, rfl⟩, by decide, fun _ => ⟨3, rfl⟩, fun _ _ => ⟨rfl, rfl⟩, by decide, by decide,
    .inl (by decide), fun v => by simp [XRun.user]⟩

/-- **C77** refuted for NaN: an initial value that is not a number passes the checks although it is not
between the limits; the run returns and the first row of the chain is NaN. -/
theorem C77_nan_refuted : ∃ out, runSimulation XRun.user XRun.rng exactLapack 0
      (newObj (fun _ : Fin 1 => ⟨"a", .nan, .fin (-10), .fin 10, .fin 0, .pinf, true, 0, true⟩)
        (defineSimulationOptions { nsimu := 3, method := .mh }) (defaultExtra (nS XRun.flags))
        XRun.settings XRun.data) () false = .ok out ∧
    ∃ row, out.results.chain[0]? = some row ∧ List.ofFn row = [.nan] := by
  obtain ⟨o, ho⟩ : ∃ o : Obj XR XRun.flags 1, o = newObj (fun _ : Fin 1 =>
      ⟨"a", .nan, .fin (-10), .fin 10, .fin 0, .pinf, true, 0, true⟩)
        (defineSimulationOptions { nsimu := 3, method := .mh }) (defaultExtra (nS XRun.flags))
        XRun.settings XRun.data := ⟨_, rfl⟩
  rw [← ho]
  have hc : ∃ c, covOf exactLapack o = .ok c := by
    have hix : ∀ M : Mat XR 1, ∃ A, ixRestrict M (parindOf XRun.flags) = .ok A := fun M => by
      unfold ixRestrict
      rw [dif_pos fun i => (parindOf XRun.flags i).2]
      exact ⟨_, rfl⟩
    have hsc : ∃ x, checkAdascale o.opts.adascale (nS XRun.flags) = .ok x := by
      subst ho
      change ∃ x, checkAdascale (none : Option XR) (nS XRun.flags) = .ok x
      unfold checkAdascale
      dsimp only
      rw [if_neg (by decide)]
      exact ⟨_, rfl⟩
    obtain ⟨x, hsc⟩ := hsc
    have hq : o.extra.qcov = none := by subst ho; rfl
    have hm : o.opts.method = .mh := by subst ho; rfl
    unfold covOf initCovState
    rw [hsc, ok_bind, hq, hm]
    unfold setupCovarianceMatrix setupRMatrix
    dsimp only
    obtain ⟨A, hA⟩ := hix (diagflat fun i => defaultVariance (setupPriorSigma (o.specs i).priorSigma)
      (o.specs i).theta0)
    rw [hA, ok_bind, if_pos rfl, ok_bind]
    exact ⟨_, rfl⟩
  have hj : o.extra.jsonRestart = none := by subst ho; rfl
  obtain ⟨⟨o1, I, s0⟩, h⟩ := (setup_iff (U := XRun.user) (L := exactLapack) (rng := ()) (o := o)
    hj (by subst ho; rfl) (by subst ho; rfl)).2 ⟨by subst ho; change (0 : ℤ) < 3; decide, by
      subst ho
      intro k _
      refine ⟨?_, rfl, rfl⟩
      change PyFloat.le (XR.fin (-10)) (XR.fin 10) = true
      simp, by subst ho; exact .inl (by decide), ⟨_, .inl rfl⟩, by
      subst ho
      exact ⟨fun v hv => by cases hv; exact .inl rfl, nofun, nofun, .inr (.inl rfl), .inl (by decide)⟩, hc⟩
  rcases C64_run_returns (G := XRun.rng) (fuel := 0) h (by subst ho; change (1 : ℤ) < 3; decide) (by decide)
    (fun v => by simp [XRun.user]) (fun h => by subst ho; exact absurd h (by change ¬ (1 : ℤ) < 1; decide))
    (by subst ho; change XRun.data.n ≠ []; decide) with ⟨out, h⟩ | ⟨_, h, _⟩ | ⟨_, h2, _⟩
  · obtain ⟨_, ⟨row, h1, h2⟩, _⟩ := C02_chain_records_moves hj h
    refine ⟨out, h, row, h1, h2.trans ?_⟩
    subst ho
    rfl
  · subst ho
    exact absurd h (by change ¬ (1 : ℤ) < 1; decide)
  · rw [(setup_start h).1.init.opts, (setup_start h).1.opts, (setup_start h).1.ms] at h2
    subst ho
    have h2 : false = true := h2
    cases h2

end exact
end Verif
