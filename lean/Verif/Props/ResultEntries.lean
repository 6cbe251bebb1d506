import Verif.Model.ResultEntries
import Verif.Lemmas.Sigma
import Verif.Props.PriorKept
import Verif.Props.Report
import Verif.Spec.Toy

/-! # C148: the entries `prior`, `simulation_options` and `model_settings` of the results -/

set_option linter.unusedSectionVars false

namespace Verif
variable {F σ : Type} [PyFloat F] {N m : ℕ} {flags : Fin N → Bool}

theorem lookup_filter_ne {V : Type} (key k : String) : ∀ d : List (String × V),
    (d.filter fun kv => !(kv.1 == key)).lookup k = if k = key then none else d.lookup k
  | [] => by simp
  | (a, v) :: d => by
    have ih := lookup_filter_ne key k d
    by_cases ha : a = key
    · subst ha
      rw [List.filter_cons_of_neg (by simp), ih]
      by_cases hk : k = a
      · simp [hk]
      · rw [if_neg hk, if_neg hk, List.lookup_cons, beq_eq_false_iff_ne.2 hk]
    · rw [List.filter_cons_of_pos (by simpa using ha), List.lookup_cons, ih, List.lookup_cons]
      by_cases hk : k = a
      · subst hk; simp [ha]
      · rw [beq_eq_false_iff_ne.2 hk]

theorem any_filter_ne {V : Type} {key k : String} (h : k ≠ key) (d : List (String × V)) :
    (d.filter fun kv => !(kv.1 == key)).any (fun kv => kv.1 == k) = d.any fun kv => kv.1 == k := by
  rw [Bool.eq_iff_iff]
  simp only [List.any_eq_true, List.mem_filter, beq_iff_eq, Bool.not_eq_true', beq_eq_false_iff_ne]
  constructor
  · rintro ⟨x, ⟨hx, _⟩, e⟩; exact ⟨x, hx, e⟩
  · rintro ⟨x, hx, e⟩; exact ⟨x, ⟨hx, by rw [e]; exact h⟩, e⟩

/-- **C148, the filter.** Removing keys, none named twice, from a dictionary gives the dictionary in which these
keys are missing and every other key has its value if all of them are there, and raises `KeyError` otherwise. -/
theorem C148_removekeys {V : Type} : ∀ (keys : List String) (d : List (String × V)), keys.Nodup →
    ((∀ k ∈ keys, k ∈ d.map Prod.fst) → ∃ r, withoutKeys d keys = .ok r ∧
      ∀ k, r.lookup k = if k ∈ keys then none else d.lookup k) ∧
    ((∃ k ∈ keys, k ∉ d.map Prod.fst) → withoutKeys d keys = .error .keyError)
  | [], d, _ => ⟨fun _ => ⟨d, rfl, by simp⟩, by simp⟩
  | key :: keys, d, hn => by
    obtain ⟨hk, hn⟩ := List.nodup_cons.1 hn
    have hin : d.any (fun kv => kv.1 == key) = true ↔ key ∈ d.map Prod.fst := by
      simp only [List.any_eq_true, beq_iff_eq, List.mem_map]
    have hstep : withoutKeys d (key :: keys) =
        (withoutKey d key).bind fun d' => withoutKeys d' keys := rfl
    obtain ⟨i1, i2⟩ := C148_removekeys keys (d.filter fun kv => !(kv.1 == key)) hn
    have hmem : ∀ k ∈ keys, (k ∈ (d.filter fun kv => !(kv.1 == key)).map Prod.fst ↔ k ∈ d.map Prod.fst) := by
      intro k hkk
      have hne : k ≠ key := fun e => hk (e ▸ hkk)
      have := any_filter_ne hne d
      rw [Bool.eq_iff_iff] at this
      simpa only [List.any_eq_true, beq_iff_eq, List.mem_map] using this
    constructor
    · intro h
      have e : withoutKey d key = .ok (d.filter fun kv => !(kv.1 == key)) :=
        if_pos (hin.2 (h key (by simp)))
      obtain ⟨r, h1, h2⟩ := i1 fun k hkk => (hmem k hkk).2 (h k (by simp [hkk]))
      refine ⟨r, by rw [hstep, e]; exact h1, fun k => ?_⟩
      rw [h2, lookup_filter_ne]
      by_cases hkk : k ∈ keys
      · simp [hkk]
      · by_cases hke : k = key <;> simp [hkk, hke]
    · rintro ⟨k, hkk, h⟩
      by_cases hd : key ∈ d.map Prod.fst
      · have e : withoutKey d key = .ok (d.filter fun kv => !(kv.1 == key)) := if_pos (hin.2 hd)
        rcases List.mem_cons.1 hkk with rfl | hkk
        · exact absurd hd h
        · rw [hstep, e]
          exact i2 ⟨k, hkk, fun h' => h ((hmem k hkk).1 h')⟩
      · have e : withoutKey d key = .error .keyError := if_neg (by rw [hin]; exact hd)
        rw [hstep, e]; rfl

example : withoutKeys [("a", 1), ("b", 2), ("c", 3)] ["c", "a"] = .ok [("b", 2)] ∧
    withoutKeys [("a", 1), ("b", 2)] ["a", "d"] = .error .keyError := by decide

/-- **C148, options.** The entry `simulation_options` of the results of every completed run, whatever happened before,
holds the method, `nsimu`, `adaptint`, `ntry`, `burnintime` and `adascale` the user asked for; `lastadapt` and
`savesize` as asked for, or `nsimu` where that is not positive (for `savesize` also where it exceeds `nsimu`); and
`updatesigma` is true exactly if the results hold an error-variance chain.  The scales of delayed rejection, the
weight `initqcovn`, the flags `doram` and `dodram`, the user's factors `RDR` and the verbosity are not in it. -/
theorem C148_options {U : UserFuns F N (nS flags) m} {o : Obj F flags m} {G : Rng σ F} {L : Lapack F} {fuel : ℕ}
    {rng : σ} {up : Bool} {out : RunOut F σ flags m} (h : runSimulation U G L fuel o rng up = .ok out) :
    ∃ d, optionsEntry out = .ok d ∧
      d.lookup "method" = some (.method o.opts.method) ∧ d.lookup "nsimu" = some (.int o.opts.nsimu) ∧
      d.lookup "adaptint" = some (.int o.opts.adaptint) ∧ d.lookup "ntry" = some (.int o.opts.ntry) ∧
      d.lookup "burnintime" = some (.int o.opts.burnintime) ∧
      d.lookup "adascale" = some (.maybeFloat o.opts.adascale) ∧
      d.lookup "lastadapt" = some (.int (if o.opts.lastadapt < 1 then o.opts.nsimu else o.opts.lastadapt)) ∧
      d.lookup "savesize" = some (.int
        (if o.opts.savesize ≤ 0 ∨ o.opts.nsimu < o.opts.savesize then o.opts.nsimu else o.opts.savesize)) ∧
      d.lookup "updatesigma" = some (.flag out.results.s2chain.isSome) ∧
      ∀ k ∈ ["drscale", "initqcovn", "doram", "dodram", "RDR", "verbosity"], d.lookup k = none := by
  have hs2 : out.results.s2chain.isSome = if o.ms.N0.isSome then true else o.opts.updatesigma := by
    obtain ⟨h1, h2, _⟩ := run_updatesigma h
    by_cases hN : o.ms.N0.isSome
    · rw [if_pos hN, h2 (.inl hN)]
    · rw [if_neg hN]
      cases hu : o.opts.updatesigma with
      | false => rw [(h1 (by simpa using hN) hu).2]; rfl
      | true => exact h2 (.inr hu)
  obtain ⟨o1, I, s0, h1, h2, h3, h4, h5⟩ := runSimulation_ok h
  have hst := (setup_start h1).1
  have ho : out.obj.opts = checkDependentSimulationOptions o.opts o.ms.N0.isSome := by
    rw [h5, ← hst.opts, ← hst.ms, ← hst.init.opts]
  obtain ⟨d, hd, hl⟩ := (C148_removekeys ["doram", "waitbar", "debug", "dodram", "maxmem", "verbosity", "RDR",
    "stats", "initqcovn", "drscale", "maxiter", "_SimulationOptions__options_set", "skip"]
    (optionItems out.obj.opts out.obj.extra) (by decide)).1 (by simp [optionItems])
  refine ⟨d, hd, ?_⟩
  rw [hs2]
  rw [ho] at hl
  simp only [hl, optionItems, checkDependentSimulationOptions]
  simp [List.lookup]

/-- the row of the error-variance chain that belongs to the last row of the chain -/
theorem run_last_sigma {U : UserFuns F N (nS flags) m} {o : Obj F flags m} {G : Rng σ F} {L : Lapack F} {fuel : ℕ}
    {rng : σ} {up : Bool} {out : RunOut F σ flags m} (h : runSimulation U G L fuel o rng up = .ok out) :
    ∀ c, out.results.s2chain = some c → c[out.obj.chainIndex]? = some out.final.errModel.sigma2 := by
  intro c hc
  have hu := run_updatesigma h
  obtain ⟨o1, I, s0, h1, h2, h3, h4, h5⟩ := runSimulation_ok h
  obtain ⟨_, _, _, _, _, _, _, hr, _⟩ := generateResults_ok h3
  have hst := (setup_start h1).1
  have hopt : I.opts.updatesigma = true := by
    have : I.opts.updatesigma = if o.ms.N0.isSome then true else o.opts.updatesigma := by
      rw [hst.init.opts, hst.opts, hst.ms]; rfl
    rw [this]
    by_cases hN : o.ms.N0.isSome
    · rw [if_pos hN]
    · rw [if_neg hN]
      by_contra hf
      have := (hu.1 (by simpa using hN) (by simpa using hf)).2
      rw [this] at hc; cases hc
  obtain ⟨hn, s1, hP, hs1⟩ := executeSimulator_inv
    (P := fun i s => 1 < i → ∃ c, s.s2chain = some c ∧ c[s.chainIndex]? = some s.errModel.sigma2)
    (fun h => absurd h (by omega))
    (fun i a b p _ _ _ hp _ => by
      have he := hp.errModel
      rw [if_pos (show (runOpts I.opts o1.extra).updatesigma = true from hopt)] at he
      obtain ⟨c, r, e1, e2, e3, _⟩ := he
      exact ⟨_, e3, by rw [hp.idx, List.getElem?_set_self e2]⟩) h2
  obtain ⟨c', e1, e2⟩ := hP hn
  have hci : out.obj.chainIndex = s1.chainIndex := by rw [h5, hs1]
  rw [hr, hs1] at hc
  rw [show s1.s2chain = some c from hc] at e1; cases e1
  rw [hci, e2, hs1]

theorem toErrModel_entries {s : ModelSettings F} {M : ErrModel F m} (h : toErrModel s m = .ok M) :
    s.N0 = some (List.ofFn M.N0) ∧ s.N = some M.N ∧
    ((s.s20Alias = true ∧ M.S20 = .aliasSigma2) ∨
      ∃ w, s.s20Alias = false ∧ M.S20 = .own w ∧ s.S20 = List.ofFn w) := by
  have key : ∀ (l : List F) (hl : l.length = m), l = List.ofFn fun i : Fin m => l.get (i.cast hl.symm) := by
    rintro l rfl; exact (List.ofFn_get l).symm
  unfold toErrModel at h
  split at h
  · rename_i s2 n0 Nn g1 g2 g3
    split at h
    · rename_i hlen
      cases h
      refine ⟨by rw [g2]; exact congrArg some (key n0 hlen.2.1), g3, ?_⟩
      cases ha : s.s20Alias with
      | true => exact .inl ⟨rfl, rfl⟩
      | false => exact .inr ⟨_, rfl, rfl, key s.S20 hlen.2.2⟩
    · cases h
  · cases h

/-- **C148, settings.** The entry `model_settings` of the results of every completed run holds: as `sigma2` the error
variances that belong to the last row of the chain - the row of the error-variance chain with that number, or, without
such a chain, those the run started with; as `N0` the prior weights the run used; as `S20` the prior scales the run
used, unless none were given, when it is the sampled `sigma2`; and the number of sums of squares.  The functions of the
user are not in it. -/
theorem C148_settings {U : UserFuns F N (nS flags) m} {o0 o : Obj F flags m} (h0 : o0.results = none)
    (hre : Reachable U o0 o) {G : Rng σ F} {L : Lapack F} {fuel : ℕ}
    {rng : σ} {up : Bool} {out : RunOut F σ flags m} (h : runSimulation U G L fuel o rng up = .ok out) :
    ∃ d v, settingsEntry out = .ok d ∧ d.lookup "sigma2" = some (.floats (List.ofFn v)) ∧
      (∀ c, out.results.s2chain = some c → c[out.results.chain.length - 1]? = some v) ∧
      (out.results.s2chain = none → v = out.init.errModel.sigma2) ∧
      d.lookup "N0" = some (.floats (List.ofFn out.init.errModel.N0)) ∧
      d.lookup "N" = some (.floats out.init.errModel.N) ∧
      (∀ w, out.init.errModel.S20 = .own w → d.lookup "S20" = some (.floats (List.ofFn w))) ∧
      (out.init.errModel.S20 = .aliasSigma2 → d.lookup "S20" = some (.floats (List.ofFn v))) ∧
      d.lookup "nsos" = some (.int m) ∧
      ∀ k ∈ ["sos_function", "prior_function", "model_function", "prior_update_function", "prior_pars"],
        d.lookup k = none := by
  have hlast := run_last_sigma h
  have hu := run_updatesigma h
  obtain ⟨hinv', hres', hch', _⟩ := run_objInv (reachable_objInv h0 hre) h
  have hl := hinv'.len (by rw [hres']; rfl)
  rw [hch'] at hl
  obtain ⟨d, hd, hlk⟩ := (C148_removekeys ["sos_function", "prior_function", "model_function",
    "prior_update_function", "prior_pars"] (settingItems out.obj.ms m) (by decide)).1 (by simp [settingItems])
  obtain ⟨o1, I, s0, h1, h2, h3, h4, h5⟩ := runSimulation_ok h
  have hst := (setup_start h1).1
  obtain ⟨ms1, _, _, e⟩ := hst.init.ms
  have hms : out.obj.ms = settingsAfter I.ms out.final.errModel := by rw [h5]
  obtain ⟨t1, t2, t3⟩ := toErrModel_entries e
  refine ⟨d, out.final.errModel.sigma2, hd, ?_, ?_, ?_, ?_, ?_, ?_, ?_, ?_, ?_⟩
  · rw [hlk, hms]; simp [settingItems, settingsAfter, List.lookup]
  · intro c hc
    rw [hl]
    exact hlast c hc
  · intro hn
    refine (congrArg ErrModel.sigma2 (hu.1 ?_ ?_).1)
    · by_contra hN
      have := hu.2.1 (.inl (by simpa [Option.isSome_iff_ne_none] using hN))
      rw [hn] at this; cases this
    · by_contra hN
      have := hu.2.1 (.inr (by simpa using hN))
      rw [hn] at this; cases this
  · rw [hlk, hms, h4]; simp [settingItems, settingsAfter, List.lookup, t1]
  · rw [hlk, hms, h4]; simp [settingItems, settingsAfter, List.lookup, t2]
  · intro w hw
    rw [h4] at hw
    rcases t3 with ⟨a1, a2⟩ | ⟨w', a1, a2, a3⟩
    · rw [hw] at a2; cases a2
    · rw [hw] at a2; cases a2
      rw [hlk, hms]; simp [settingItems, settingsAfter, List.lookup, ModelSettings.s20Now, a1, a3]
  · intro hw
    rw [h4] at hw
    rcases t3 with ⟨a1, a2⟩ | ⟨w', a1, a2, a3⟩
    · rw [hlk, hms]; simp [settingItems, settingsAfter, List.lookup, ModelSettings.s20Now, a1]
    · rw [hw] at a2; cases a2
  · rw [hlk, hms]; simp [settingItems, List.lookup]
  · intro k hk
    rw [hlk, if_pos hk]

/-- **C148, prior.** The entry `prior` of the results of every completed run, after any history of runs, restarts,
continuations and option changes, holds for every parameter, sampled or not, the centre and the width of the prior as
the user gave them - the prior mean, or the user's initial value where none was given; the prior standard deviation,
infinite where it is not positive - and the prior function was called with the entries of the sampled
parameters. (Initial values must not be NaN.) -/
theorem C148_prior {U : UserFuns F N (nS flags) m} {o0 o : Obj F flags m} (h0 : o0.results = none)
    (hnan : ∀ k, PyFloat.isnan (o0.specs k).theta0 = false) (hre : Reachable U o0 o)
    {G : Rng σ F} {L : Lapack F} {fuel : ℕ} {rng : σ} {up : Bool} {out : RunOut F σ flags m}
    (h : runSimulation U G L fuel o rng up = .ok out) :
    (∀ k, ((priorEntry out).1 k =
        if PyFloat.isnan (o0.specs k).priorMu then (o0.specs k).theta0 else (o0.specs k).priorMu) ∧
      (PyFloat.beq (o0.specs k).priorSigma (lit 0) = false → PyFloat.le (o0.specs k).priorSigma (lit 0) = false →
        (priorEntry out).2 k = (o0.specs k).priorSigma) ∧
      (PyFloat.beq (o0.specs k).priorSigma (lit 0) = true ∨ PyFloat.le (o0.specs k).priorSigma (lit 0) = true →
        (priorEntry out).2 k = PyFloat.inf)) ∧
    ∀ th, out.init.problem.prior th =
      U.priorFun th (atParind flags (priorEntry out).1) (atParind flags (priorEntry out).2) := by
  obtain ⟨o1, I, s0, h1, h2, h3, h4, h5⟩ := runSimulation_ok h
  have hst := (setup_start h1).1
  have hc := setup_centre hnan (reachable_centre hnan hre) h1
  have hsame := (reachable_objInv h0 hre).same.trans hst.same
  have hsp : out.obj.specs = o1.specs := by rw [h5]
  refine ⟨fun k => ⟨?_, fun hb hl => ?_, fun hb => ?_⟩, fun th => ?_⟩
  · change setupPriorMu (out.obj.specs k).priorMu (out.obj.specs k).theta0 = _
    rw [hsp]
    obtain ⟨g1, g2⟩ := hc k
    unfold setupPriorMu
    cases hp : PyFloat.isnan (o0.specs k).priorMu with
    | false => rw [g1 hp, hp]; rfl
    | true =>
      rw [if_pos rfl]
      rcases g2 hp with ⟨g3, g4⟩ | g3
      · rw [g3, if_pos hp, g4]
      · rw [g3, if_neg (by rw [hnan k]; simp)]
  · change setupPriorSigma (out.obj.specs k).priorSigma = _
    rw [hsp, hsame.priorSigma]
    unfold setupPriorSigma
    dsimp only
    simp [hb, hl]
  · change setupPriorSigma (out.obj.specs k).priorSigma = _
    rw [hsp, hsame.priorSigma]
    unfold setupPriorSigma
    dsimp only
    by_cases hb' : PyFloat.beq (o0.specs k).priorSigma (lit 0) = true
    · simp only [if_pos hb', ite_self]
    · rcases hb with hb | hb
      · exact absurd hb hb'
      · simp only [if_neg hb', if_pos hb]
  · rw [h4, hst.init.priorFun]
    unfold priorEntry
    dsimp only
    rw [hsp]

/-- The hypotheses hold for a run of 5 rows with sampled variances that is continued for 4 rows: the second results
record the settings of the second run, the last sampled variances and the prior of the first definition. -/
example : ∃ a b d e v, Toy.twice .dram 5 4 = .ok (a, b) ∧ optionsEntry b = .ok d ∧
    d.lookup "nsimu" = some (.int 4) ∧ d.lookup "updatesigma" = some (.flag true) ∧
    settingsEntry b = .ok e ∧ e.lookup "sigma2" = some (.floats (List.ofFn v)) ∧
    (∀ c, b.results.s2chain = some c → c[b.results.chain.length - 1]? = some v) ∧
    (∀ k, (priorEntry b).1 k = if PyFloat.isnan (Toy.specs k).priorMu then (Toy.specs k).theta0
      else (Toy.specs k).priorMu) := by
  obtain ⟨⟨a, b⟩, h⟩ := exists_ok (x := Toy.twice .dram 5 4) (by decide +kernel)
  have hab := h
  unfold Toy.twice at h
  rw [bind_ok] at h
  obtain ⟨a', h1, h⟩ := h
  rw [bind_ok] at h
  obtain ⟨b', h2, h⟩ := h
  cases h
  have hr : Reachable Toy.user (newObj Toy.specs { Toy.opts .dram 5 with updatesigma := true }
      Toy.extra Toy.settings Toy.data) { a.obj with
        opts := { Toy.opts .dram 4 with updatesigma := true }, extra := Toy.extra } :=
    .options { method := .dram, nsimu := 4, savesize := 2, updatesigma := true } Toy.extra
      (.run Toy.rng Toy.lapack 100 0 false a .start h1)
  obtain ⟨d, d1, -, d2, -, -, -, -, -, -, d3, -⟩ := C148_options h2
  obtain ⟨e, v, e1, e2, e3, -⟩ := C148_settings rfl hr h2
  obtain ⟨p1, -⟩ := C148_prior rfl (by decide +kernel) hr h2
  refine ⟨a, b, d, e, v, hab, d1, d2, ?_, e1, e2, e3, fun k => (p1 k).1⟩
  rw [d3, (run_updatesigma h2).2.1 (.inr rfl)]

end Verif
