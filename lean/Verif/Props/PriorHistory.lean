import Verif.Props.VarianceHistory

/-! # C22: the error-variance prior in every run of an object -/

set_option linter.unusedSectionVars false

namespace Verif

section general
variable {F σ : Type} [PyFloat F] {N m : ℕ} {flags : Fin N → Bool}

theorem eq_ofFn {l : List F} {v : Vec F m} (hl : l.length = m)
    (h : ∀ j : Fin m, l[(j : ℕ)]? = some (v j)) : l = List.ofFn v := by
  apply List.ext_getElem?
  intro i
  by_cases hi : i < m
  · rw [h ⟨i, hi⟩, List.getElem?_ofFn, dif_pos hi]
  · rw [List.getElem?_eq_none (by omega), List.getElem?_eq_none (by rw [List.length_ofFn]; omega)]

theorem spread_ofFn (hone : ∀ x : F, lit 1 * x = x) {v w : Vec F m} (h : Spread (List.ofFn v) w) :
    w = v := by
  rcases h with ⟨x, hx, h⟩ | ⟨_, h⟩
  · have hm : m = 1 := by simpa using congrArg List.length hx
    subst hm
    funext j
    rw [h j, hone, Subsingleton.elim j 0]
    simpa using hx.symm
  · funext j
    have := h j
    rw [List.getElem?_ofFn, dif_pos j.2] at this
    exact (Option.some.inj this).symm

/-- what a run whose `S20` is an array of its own leaves in the settings -/
theorem settings_written {s1 s2 : ModelSettings F} {M : ErrModel F m} {v : Vec F m}
    (h2 : checkWrtNsos s1 m = .ok s2) (h3 : toErrModel s2 m = .ok M) (hv : M.S20 = .own v) :
    s2.s20Alias = false ∧ s2.S20 = List.ofFn v ∧ s2.N0 = some (List.ofFn M.N0) := by
  obtain ⟨S20, f1, n0, N0, f2, sg, sigma2, f3, N1, N2, b1, b2, b3, b4, b5, b6, b7, rfl⟩ :=
    checkWrtNsos_ok h2
  obtain ⟨t2, t0, tN, c1, c2, c3, c4, c5, c6, c7, c8⟩ := toErrModel_ok h3
  cases c2
  have hal : (s1.s20Alias && !f1 && !f3) = false := by
    rw [Bool.eq_false_iff]
    intro ha
    rw [c7 ha] at hv
    cases hv
  obtain ⟨w, d1, d2⟩ := c8 hal
  rw [hv] at d1
  cases d1
  exact ⟨hal, eq_ofFn (checkSizeOfSetting_length b1) d2,
    congrArg some (eq_ofFn (checkSizeOfSetting_length b3) c6)⟩

/-- The settings hold a prior that stands for the lists `n0` and `s0`. -/
structure PriorKept (m : ℕ) (n0 s0 : List F) (ms : ModelSettings F) : Prop where
  noAlias : ms.s20Alias = false
  vals : ∃ v w : Vec F m, Spread n0 v ∧ Spread s0 w ∧ ms.N0 = some (List.ofFn v) ∧
    ms.S20 = List.ofFn w ∧ (List.ofFn w).any PyFloat.isnan = false

theorem spread_not_nan (hone : ∀ x : F, lit 1 * x = x) {l : List F} {v : Vec F m} (h : Spread l v)
    (hl : l.any PyFloat.isnan = false) : (List.ofFn v).any PyFloat.isnan = false := by
  rw [List.any_eq_false] at hl ⊢
  intro y hy
  obtain ⟨j, rfl⟩ := List.mem_ofFn.1 hy
  rcases h with ⟨x, rfl, h⟩ | ⟨_, h⟩
  · rw [h j, hone]; exact hl x (by simp)
  · exact hl _ (List.mem_of_getElem? (h j))

/-- The start of a run, given settings as the user made them or as a run left them. -/
theorem prior_start (hone : ∀ x : F, lit 1 * x = x) {n0 s0 : List F} {ms ms1 ms2 : ModelSettings F}
    {dn : List ℕ} {db : ℕ} {M : ErrModel F m}
    (h : PriorKept m n0 s0 ms ∨ (ms.s20Alias = false ∧ (defaultN0 ms.sigma2 ms.N0).2 = n0 ∧
      s0.any PyFloat.isnan = false ∧
      (ms.S20 = s0 ∨ (ms.S20.any PyFloat.isnan = true ∧ s0.length = 1 ∧
        (defaultN0 ms.sigma2 ms.N0).1.getD (List.replicate (ms.nbatch.getD db) (lit 1)) = s0))))
    (h1 : checkDependentModelSettings ms dn db = .ok ms1) (h2 : checkWrtNsos ms1 m = .ok ms2)
    (h3 : toErrModel ms2 m = .ok M) :
    PriorKept m n0 s0 ms2 ∧ Spread n0 M.N0 ∧ ∃ w, M.S20 = .own w ∧ Spread s0 w := by
  rcases h with ⟨ha, v, w, k1, k2, k3, k4, k5⟩ | ⟨ha, k1, k2, k3⟩
  · obtain ⟨_, b, c, _⟩ := settings_ok ha h1 h2 h3
    obtain ⟨w', hw, hsp⟩ := c (by rw [k4]; exact k5)
    rw [k4] at hsp
    rw [k3] at b
    obtain rfl := spread_ofFn hone hsp
    have hv := spread_ofFn hone (show Spread (List.ofFn v) M.N0 from b)
    obtain ⟨g1, g2, g3⟩ := settings_written h2 h3 hw
    rw [← hv] at k1
    exact ⟨⟨g1, M.N0, w', k1, k2, g3, g2, k5⟩, k1, w', hw, k2⟩
  · obtain ⟨a, b, c, d⟩ := settings_ok ha h1 h2 h3
    rw [k1] at b
    have hS : ∃ w, M.S20 = .own w ∧ Spread s0 w := by
      rcases k3 with k3 | ⟨k3, k4, k5⟩
      · obtain ⟨w, hw, hsp⟩ := c (by rw [k3]; exact k2)
        exact ⟨w, hw, by rw [← k3]; exact hsp⟩
      · exact ⟨M.sigma2, (d k3).1 (by rw [k5]; exact k4), by rw [← k5]; exact a⟩
    obtain ⟨w, hw, hsp⟩ := hS
    obtain ⟨g1, g2, g3⟩ := settings_written h2 h3 hw
    exact ⟨⟨g1, M.N0, w, b, hsp, g3, g2, spread_not_nan hone hsp k2⟩, b, w, hw, hsp⟩

/-- The prior of all runs of an object. -/
theorem prior_history (hone : ∀ x : F, lit 1 * x = x) {U : UserFuns F N (nS flags) m}
    {o0 o : Obj F flags m} (ho : Reachable U o0 o) {n0 s0 : List F}
    (ha : o0.ms.s20Alias = false) (h0 : (defaultN0 o0.ms.sigma2 o0.ms.N0).2 = n0)
    (hn : s0.any PyFloat.isnan = false)
    (hs : o0.ms.S20 = s0 ∨ (o0.ms.S20.any PyFloat.isnan = true ∧ s0.length = 1 ∧
      (defaultN0 o0.ms.sigma2 o0.ms.N0).1.getD
        (List.replicate (o0.ms.nbatch.getD o0.data.nbatch) (lit 1)) = s0)) :
    (PriorKept m n0 s0 o.ms ∨ o.ms = o0.ms) ∧ o.data = o0.data ∧
    ∀ {σ : Type} {G : Rng σ F} {L : Lapack F} {fuel : ℕ} {rng : σ} {up : Bool}
      {out : RunOut F σ flags m}, runSimulation U G L fuel o rng up = .ok out →
      PriorKept m n0 s0 out.obj.ms ∧ out.obj.data = o0.data ∧ Spread n0 out.init.errModel.N0 ∧
        ∃ w, out.init.errModel.S20 = .own w ∧ Spread s0 w := by
  have key : ∀ {o : Obj F flags m}, (PriorKept m n0 s0 o.ms ∨ o.ms = o0.ms) → o.data = o0.data →
      ∀ {σ : Type} {G : Rng σ F} {L : Lapack F} {fuel : ℕ} {rng : σ} {up : Bool}
      {out : RunOut F σ flags m}, runSimulation U G L fuel o rng up = .ok out →
      PriorKept m n0 s0 out.obj.ms ∧ out.obj.data = o0.data ∧ Spread n0 out.init.errModel.N0 ∧
        ∃ w, out.init.errModel.S20 = .own w ∧ Spread s0 w := by
    intro o h hd σ G L fuel rng up out hrun
    obtain ⟨o1, I, t0, h1, h2, h3, h4, h5⟩ := runSimulation_ok hrun
    have hst := (setup_start h1).1
    obtain ⟨ms1, k1, k2, k3⟩ := hst.init.ms
    rw [hst.ms, hst.data] at k1
    obtain ⟨⟨q1, q2⟩, r1, r2⟩ := prior_start hone (n0 := n0) (s0 := s0) (by
      rcases h with h | h
      · exact .inl h
      · rw [h, hd]; exact .inr ⟨ha, h0, hn, hs⟩) k1 k2 k3
    rw [h4]
    refine ⟨?_, ?_, r1, r2⟩
    · rw [h5]; exact ⟨q1, q2⟩
    · rw [h5]; exact hst.data.trans hd
  suffices h : (PriorKept m n0 s0 o.ms ∨ o.ms = o0.ms) ∧ o.data = o0.data from
    ⟨h.1, h.2, fun hr => key h.1 h.2 hr⟩
  induction ho with
  | start => exact ⟨.inr rfl, rfl⟩
  | options a e _ ih => exact ih
  | run G L fuel rng up out _ hrun ih =>
    obtain ⟨r1, r2, _⟩ := key ih.1 ih.2 hrun
    exact ⟨.inl r1, r2⟩

/-- **C22 (partial)**, every run of an object: if the user gave `S20` (no entry NaN), then whatever
runs, continuations and changes of options came before, every error variance a run samples is drawn
with the `N0` (or its default) and the `S20` that the user gave when the object was made.

Missing from the full statement: `S20` left unset together with several initial error variances, see
`C22_alias_refuted`. -/
theorem C22_every_run_partial (hone : ∀ x : F, lit 1 * x = x) {U : UserFuns F N (nS flags) m}
    {specs : Fin N → ParamSpec F} {opts : SimOpts F} {extra : ExtraOpts F (nS flags)}
    {sigma2 Nobs N0 : Option (List F)} {nbatch : Option ℕ} {S20 : List F} {data : Data}
    {o : Obj F flags m} (ho : Reachable U (newObj specs opts extra
      (defineModelSettings sigma2 Nobs N0 nbatch (some S20)) data) o)
    (hS : S20.any PyFloat.isnan = false)
    {G : Rng σ F} {L : Lapack F} {fuel : ℕ} {rng : σ} {up : Bool} {out : RunOut F σ flags m}
    (h : runSimulation U G L fuel o rng up = .ok out) {c : List (Vec F m)}
    (hc : out.results.s2chain = some c) :
    ∃ (k0 : ℕ) (n0 s20 : Vec F m), Spread (N0.getD [if sigma2.isSome then lit 1 else lit 0]) n0 ∧
      Spread S20 s20 ∧ (c.length : ℤ) = k0 + o.opts.nsimu ∧ (up = false → k0 = 0) ∧
      (up = true → k0 = o.chainIndex) ∧
      ∀ k, k0 ≤ k → k + 1 < c.length → ∃ row ss, c[k + 1]? = some row ∧
        out.results.sschain[k + 1]? = some ss ∧
        ∀ j : Fin m, ∃ Nj, out.init.errModel.N[(j : ℕ)]? = some Nj ∧
          DrawnFrom G fuel (n0 j) Nj (s20 j) (ss j) (row j) := by
  obtain ⟨_, _, hp⟩ := prior_history hone ho rfl rfl hS (.inl rfl)
  obtain ⟨_, _, e1, w, e2, e3⟩ := hp h
  obtain ⟨k0, f1, f2, f3, f4, f5⟩ := C22_history hone ho h hc
  refine ⟨k0, out.init.errModel.N0, w, ?_, e3, f1, f2, f3, fun k hb hk => ?_⟩
  · cases N0 with
    | some l => exact e1
    | none => cases sigma2 <;> exact e1
  · obtain ⟨prev, row, ss, g1, g2, g3, g4⟩ := f5 k hb hk
    rw [e2] at g4
    exact ⟨row, ss, g2, g3, g4⟩

/-- **C22 (partial)**, every run of an object, `S20` unset: with a single initial error variance `x`
(not NaN) `S20` is that number in every run, although the error variance itself has moved on when a
later run starts. -/
theorem C22_every_run_unset_partial (hone : ∀ x : F, lit 1 * x = x) {U : UserFuns F N (nS flags) m}
    {specs : Fin N → ParamSpec F} {opts : SimOpts F} {extra : ExtraOpts F (nS flags)}
    {Nobs N0 : Option (List F)} {nbatch : Option ℕ} {x : F} {data : Data}
    {o : Obj F flags m} (ho : Reachable U (newObj specs opts extra
      (defineModelSettings (some [x]) Nobs N0 nbatch none) data) o)
    (hnan : PyFloat.isnan (PyFloat.nan : F) = true) (hx : PyFloat.isnan x = false)
    {G : Rng σ F} {L : Lapack F} {fuel : ℕ} {rng : σ} {up : Bool} {out : RunOut F σ flags m}
    (h : runSimulation U G L fuel o rng up = .ok out) {c : List (Vec F m)}
    (hc : out.results.s2chain = some c) :
    ∃ (k0 : ℕ) (n0 : Vec F m), Spread (N0.getD [lit 1]) n0 ∧
      (c.length : ℤ) = k0 + o.opts.nsimu ∧ (up = false → k0 = 0) ∧ (up = true → k0 = o.chainIndex) ∧
      ∀ k, k0 ≤ k → k + 1 < c.length → ∃ row ss, c[k + 1]? = some row ∧
        out.results.sschain[k + 1]? = some ss ∧
        ∀ j : Fin m, ∃ Nj, out.init.errModel.N[(j : ℕ)]? = some Nj ∧
          DrawnFrom G fuel (n0 j) Nj x (ss j) (row j) := by
  obtain ⟨_, _, hp⟩ := prior_history hone ho (s0 := [x]) rfl rfl (by simp [hx])
    (.inr ⟨by simp [newObj, defineModelSettings, hnan], rfl, by cases N0 <;> rfl⟩)
  obtain ⟨_, _, e1, w, e2, e3⟩ := hp h
  obtain ⟨k0, f1, f2, f3, f4, f5⟩ := C22_history hone ho h hc
  have hw : ∀ j, w j = x := by
    intro j
    rcases e3 with ⟨y, hy, e⟩ | ⟨_, e⟩
    · cases hy; rw [e j, hone]
    · have := e j
      obtain ⟨hj, e'⟩ := List.getElem?_eq_some_iff.1 this
      simpa using e'.symm
  refine ⟨k0, out.init.errModel.N0, ?_, f1, f2, f3, fun k hb hk => ?_⟩
  · cases N0 with
    | some l => exact e1
    | none => exact e1
  · obtain ⟨prev, row, ss, g1, g2, g3, g4⟩ := f5 k hb hk
    rw [e2] at g4
    refine ⟨row, ss, g2, g3, fun j => ?_⟩
    obtain ⟨Nj, q1, q2⟩ := g4 j
    exact ⟨Nj, q1, by rw [← hw j]; exact q2⟩

end general
/-- a continued run with two given `S20`: the first new variance is drawn with `N0 = 3` and `S20 = 2`, which
the user gave -/
example : ∃ out out' c, Toy.sigmaRun none (some [3]) (some [2, 1]) = .ok out ∧
    runSimulation Toy.user2 Toy.rng Toy.lapack 100 out.obj out.final.world.rng true = .ok out' ∧
    out'.results.s2chain = some c ∧ c.length = 7 ∧ out'.init.errModel.sigma2 ≠ out.init.errModel.sigma2 ∧
    ∃ row ss Nj, c[4]? = some row ∧ out'.results.sschain[4]? = some ss ∧
      DrawnFrom Toy.rng 100 3 Nj 2 (ss 0) (row 0) := by
  obtain ⟨out, h, h1⟩ := exists_ok_and (x := Toy.sigmaRun none (some [3]) (some [2, 1]))
    (fun out => match runSimulation Toy.user2 Toy.rng Toy.lapack 100 out.obj out.final.world.rng true with
      | .ok out' => decide (out'.init.errModel.sigma2 0 ≠ out.init.errModel.sigma2 0) &&
          decide (out.obj.chainIndex = 3) && out'.results.s2chain.isSome
      | .error _ => false) (by decide +kernel)
  split at h1
  · rename_i out' h'
    simp only [Bool.and_eq_true, decide_eq_true_eq] at h1
    obtain ⟨⟨h1, h2⟩, h3⟩ := h1
    have hone : ∀ x : ℚ, (lit 1 : ℚ) * x = x := fun x => by simp [lit]
    have hr : Reachable Toy.user2 _ out.obj := .run _ _ _ _ _ _ .start h
    obtain ⟨c, hc⟩ := Option.isSome_iff_exists.1 h3
    have hopts : out.obj.opts.nsimu = 4 := by
      obtain ⟨o1, I, s0, k1, _, _, _, k5⟩ := runSimulation_ok h
      rw [k5]
      exact (setup_start k1).1.init.opts ▸ by rw [(setup_start k1).1.opts]; rfl
    obtain ⟨k0, n0, s20, e1, e2, e3, -, e5, e6⟩ := C22_every_run_partial hone hr (by decide +kernel) h' hc
    have hk := e5 rfl
    rw [hopts] at e3
    obtain ⟨row, ss, g1, g2, g3⟩ := e6 3 (by omega) (by omega)
    obtain ⟨Nj, -, g3⟩ := g3 0
    have hn : n0 0 = 3 := by
      rcases e1 with ⟨x, hx, e⟩ | ⟨hl, -⟩
      · have hx : (3 : ℚ) = x := by simpa using hx
        rw [e 0, hone, hx]
      · simp at hl
    have hs : s20 0 = 2 := by
      rcases e2 with ⟨x, hx, -⟩ | ⟨-, e⟩
      · simp at hx
      · exact (Option.some.inj (e 0)).symm
    rw [hn, hs] at g3
    exact ⟨out, out', c, h, h', hc, by omega, fun e => h1 (by rw [e]), row, ss, Nj, g1, g2, g3⟩
  · cases h1

/-- a continued run with `S20` unset and one initial variance: the first new variance is drawn with `N0 = 1`
and `S20 = 2`, the initial variance -/
example : ∃ out out' c, Toy.sigmaRun (some [2]) none none = .ok out ∧
    runSimulation Toy.user2 Toy.rng Toy.lapack 100 out.obj out.final.world.rng true = .ok out' ∧
    out'.results.s2chain = some c ∧ c.length = 7 ∧ out'.init.errModel.sigma2 ≠ out.init.errModel.sigma2 ∧
    ∃ row ss Nj, c[4]? = some row ∧ out'.results.sschain[4]? = some ss ∧
      DrawnFrom Toy.rng 100 1 Nj 2 (ss 0) (row 0) := by
  obtain ⟨out, h, h1⟩ := exists_ok_and (x := Toy.sigmaRun (some [2]) none none)
    (fun out => match runSimulation Toy.user2 Toy.rng Toy.lapack 100 out.obj out.final.world.rng true with
      | .ok out' => decide (out'.init.errModel.sigma2 0 ≠ out.init.errModel.sigma2 0) &&
          decide (out.obj.chainIndex = 3) && out'.results.s2chain.isSome
      | .error _ => false) (by decide +kernel)
  split at h1
  · rename_i out' h'
    simp only [Bool.and_eq_true, decide_eq_true_eq] at h1
    obtain ⟨⟨h1, h2⟩, h3⟩ := h1
    have hone : ∀ x : ℚ, (lit 1 : ℚ) * x = x := fun x => by simp [lit]
    have hr : Reachable Toy.user2 _ out.obj := .run _ _ _ _ _ _ .start h
    obtain ⟨c, hc⟩ := Option.isSome_iff_exists.1 h3
    have hopts : out.obj.opts.nsimu = 4 := by
      obtain ⟨o1, I, s0, k1, _, _, _, k5⟩ := runSimulation_ok h
      rw [k5]
      exact (setup_start k1).1.init.opts ▸ by rw [(setup_start k1).1.opts]; rfl
    obtain ⟨k0, n0, e1, e3, -, e5, e6⟩ := C22_every_run_unset_partial hone hr (by decide +kernel)
      (by decide +kernel) h' hc
    have hk := e5 rfl
    rw [hopts] at e3
    obtain ⟨row, ss, g1, g2, g3⟩ := e6 3 (by omega) (by omega)
    obtain ⟨Nj, -, g3⟩ := g3 0
    have hn : n0 0 = 1 := by
      rcases e1 with ⟨x, hx, e⟩ | ⟨hl, -⟩
      · have hx : (1 : ℚ) = x := by simpa [lit] using hx
        rw [e 0, hone, hx]
      · simp at hl
    rw [hn] at g3
    exact ⟨out, out', c, h, h', hc, by omega, fun e => h1 (by rw [e]), row, ss, Nj, g1, g2, g3⟩
  · cases h1

end Verif
