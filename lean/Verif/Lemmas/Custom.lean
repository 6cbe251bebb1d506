import Verif.Model.Custom
import Verif.Lemmas.History

/-! # The loop with custom samplers -/

set_option linter.unusedSectionVars false

namespace Verif
variable {F σ κ V : Type} [PyFloat F] {N n m : ℕ}

/-- the environment of an iteration in which the sum-of-squares function is given `vs` -/
def customEnv (U : CustomFuns F V N n m) (E : Env F σ N n m) (vs : List V) : Env F σ N n m :=
  { E with problem := { E.problem with sosFun := (U.given (some vs)).sosFun } }

/-- the state with another generator state -/
def withRng (s : SimState F σ N n m) (g : σ) : SimState F σ N n m :=
  { s with world := { s.world with rng := g } }

theorem saveStep_withRng (E : Env F σ N n m) (i : ℕ) (s : SimState F σ N n m) (g : σ) :
    saveStep E i (withRng s g) = withRng (saveStep E i s) g := by
  unfold saveStep withRng
  dsimp only
  split <;> rfl

/-- The effect of one iteration with custom samplers. -/
structure CustomSpec (U : CustomFuns F V N n m) (E : Env F σ N n m) (i : ℕ)
    (c c' : CustomState F σ κ V N n m) (s' : SimState F σ N n m) (p : Proposal F σ N n m) (g : σ) :
    Prop where
  step : StepSpec (customEnv U E c.output) i c.sim s' p
  sim : c'.sim = withRng s' g
  update : updateAll p.accept i s'.oldSet c.samplers s'.world.rng = .ok (c'.output, c'.samplers, g)
  blocks : c'.blocks = c.blocks ++ if c.sim.savecount + 1 = E.opts.savesize
    then customBlocks c'.samplers (i - E.opts.savesize) i else []

/-- An iteration with custom samplers is an iteration without them in which the sum-of-squares
function gets the last outputs, followed by the updates. -/
theorem customStep_eq (U : CustomFuns F V N n m) (E : Env F σ N n m)
    (c : CustomState F σ κ V N n m) (i : ℕ) :
    customStep U E c i = (do
      let p ← propose (customEnv U E c.output) c.sim
      let s' ← simStep (customEnv U E c.output) c.sim i
      let (vs, cs, g) ← updateAll p.accept i s'.oldSet c.samplers s'.world.rng
      .ok ⟨withRng s' g, cs, vs, c.blocks ++ if c.sim.savecount + 1 = E.opts.savesize
        then customBlocks cs (i - E.opts.savesize) i else []⟩) := by
  unfold customStep simStep
  have hp : propose (customEnv U E c.output) { c.sim with
      iiadapt := c.sim.iiadapt + 1, savecount := c.sim.savecount + 1
      chainIndex := c.sim.chainIndex + 1 } = propose (customEnv U E c.output) c.sim := rfl
  change (propose (customEnv U E c.output) _ >>= _) = _
  rw [hp]
  cases hq : propose (customEnv U E c.output) c.sim with
  | error e => rfl
  | ok p =>
    simp only [ok_bind]
    change _ = ((propose (customEnv U E c.output) c.sim >>= _) >>= _)
    rw [hq]
    simp only [ok_bind]
    cases h1 : record { c.sim with
      iiadapt := c.sim.iiadapt + 1, savecount := c.sim.savecount + 1
      chainIndex := c.sim.chainIndex + 1 } p with
    | error e => rfl
    | ok s1 =>
      simp only [ok_bind]
      change (adapt (customEnv U E c.output) i s1 p >>= _) = _
      cases h2 : adapt (customEnv U E c.output) i s1 p with
      | error e => rfl
      | ok s2 =>
        simp only [ok_bind]
        change (sampleSigma (customEnv U E c.output) s2 >>= _) = _
        cases h3 : sampleSigma (customEnv U E c.output) s2 with
        | error e => rfl
        | ok s3 =>
          simp only [ok_bind]
          have hw : (saveStep (customEnv U E c.output) i s3).oldSet = s3.oldSet ∧
              (saveStep (customEnv U E c.output) i s3).world = s3.world := by
            unfold saveStep; split <;> exact ⟨rfl, rfl⟩
          rw [hw.1, hw.2]
          have hsc : s3.savecount = c.sim.savecount + 1 := by
            obtain ⟨_, _, e1⟩ := record_ok h1
            obtain ⟨_, e2⟩ := adapt_ok h2
            obtain ⟨_, e3⟩ := sampleSigma_ok h3
            rw [e3, e2, e1]
          cases updateAll p.accept i s3.oldSet c.samplers s3.world.rng with
          | error e => rfl
          | ok r =>
            obtain ⟨vs, cs, g⟩ := r
            simp only [ok_bind]
            rw [← saveStep_withRng]
            refine congrArg Except.ok ?_
            unfold withRng customEnv
            dsimp only
            rw [hsc]

theorem customStep_ok {U : CustomFuns F V N n m} {E : Env F σ N n m}
    {c c' : CustomState F σ κ V N n m} {i : ℕ} (h : customStep U E c i = .ok c') :
    ∃ s' p g, CustomSpec U E i c c' s' p g := by
  rw [customStep_eq, bind_ok] at h
  obtain ⟨p, hp, h⟩ := h
  obtain ⟨s', hs, h⟩ := bind_ok.1 h
  obtain ⟨⟨vs, cs, g⟩, hu, h⟩ := bind_ok.1 h
  obtain ⟨p', hp'⟩ := simStep_ok hs
  have hpp : p = p' := Except.ok.inj (hp.symm.trans hp'.prop)
  subst hpp
  cases h
  exact ⟨s', p, g, hp', rfl, hu, rfl⟩

/-- Rule for invariants of the loop with custom samplers. -/
theorem customSimulator_inv {U : CustomFuns F V N n m} {E : Env F σ N n m}
    {c c' : CustomState F σ κ V N n m} (P : ℕ → CustomState F σ κ V N n m → Prop)
    (h0 : P 1 { c with sim := loopStart c.sim })
    (hs : ∀ i c c' s' p g, 1 ≤ i → i < E.opts.nsimu → P i c → CustomSpec U E i c c' s' p g →
      P (i + 1) c')
    (h : customSimulator U E c = .ok c') :
    1 < E.opts.nsimu ∧ ∃ c1, P E.opts.nsimu c1 ∧
      c'.sim = { c1.sim with
        logs := c1.sim.logs ++ [mkBlock c1.sim c1.sim.lastbin E.opts.nsimu]
        covlogs := c1.sim.covlogs ++ [(c1.sim.lastbin, E.opts.nsimu - 1, rtr c1.sim.cov.R)] } ∧
      c'.samplers = c1.samplers ∧ c'.output = c1.output ∧
      c'.blocks = c1.blocks ++ customBlocks c1.samplers c1.sim.lastbin E.opts.nsimu := by
  unfold customSimulator at h
  obtain ⟨c1, h1, h⟩ := bind_ok.1 h
  obtain ⟨s1, h2, h⟩ := bind_ok.1 h
  unfold finish at h2
  split at h2
  · cases h2
  · rename_i hn
    cases h
    refine ⟨by omega, c1, ?_, ?_, rfl, rfl, rfl⟩
    · have := foldlM_range'_inv (P := P) (E.opts.nsimu - 1) 1 _ c1 h0
        (fun i s s' hi hi' hP hst => by
          obtain ⟨s', p, g, hp⟩ := customStep_ok hst
          exact hs i _ _ s' p g hi (by omega) hP hp) h1
      rwa [show 1 + (E.opts.nsimu - 1) = E.opts.nsimu by omega] at this
    · dsimp only at h2
      rw [show E.opts.nsimu - 1 + 1 = E.opts.nsimu by omega] at h2
      exact (Except.ok.inj h2).symm

/-- What one pass over the samplers does, sampler by sampler: `vs` are the outputs, `gs` the states
of the generator before each call and after the last. -/
structure Pass (f : CustomSampler F σ κ V n m → κ → σ → Except PyErr (V × κ × σ))
    (cs cs' : Samplers F σ κ V n m) (vs : List V) (g g' : σ) (gs : List σ) : Prop where
  len : vs.length = cs.length
  lenG : gs.length = cs.length + 1
  first : gs[0]? = some g
  last : gs[cs.length]? = some g'
  same : cs'.map Prod.fst = cs.map Prod.fst
  calls : ∀ j c k, cs[j]? = some (c, k) → ∃ v k' a b, vs[j]? = some v ∧ cs'[j]? = some (c, k') ∧
    gs[j]? = some a ∧ gs[j + 1]? = some b ∧ f c k a = .ok (v, k', b)

theorem Pass.nil (f : CustomSampler F σ κ V n m → κ → σ → Except PyErr (V × κ × σ)) (g : σ) :
    Pass f [] [] [] g g [g] :=
  ⟨rfl, rfl, rfl, rfl, rfl, by simp⟩

theorem Pass.cons {f : CustomSampler F σ κ V n m → κ → σ → Except PyErr (V × κ × σ)}
    {cs cs' : Samplers F σ κ V n m} {vs : List V} {g g' : σ} {gs : List σ}
    (h : Pass f cs cs' vs g g' gs) {c : CustomSampler F σ κ V n m} {k k' : κ} {v : V} {g0 : σ}
    (h0 : f c k g0 = .ok (v, k', g)) :
    Pass f ((c, k) :: cs) ((c, k') :: cs') (v :: vs) g0 g' (g0 :: gs) where
  len := by simp [h.len]
  lenG := by simp [h.lenG]
  first := rfl
  last := by simpa using h.last
  same := by simp [h.same]
  calls := by
    rintro (_ | j) c1 k1 hj
    · simp only [List.getElem?_cons_zero, Option.some.injEq, Prod.mk.injEq] at hj
      obtain ⟨rfl, rfl⟩ := hj
      exact ⟨v, k', g0, g, rfl, rfl, rfl, by simpa using h.first, h0⟩
    · obtain ⟨v1, k2, a, b, e1, e2, e3, e4, e5⟩ := h.calls j c1 k1 (by simpa using hj)
      exact ⟨v1, k2, a, b, by simpa using e1, by simpa using e2, by simpa using e3,
        by simpa using e4, e5⟩

theorem setupAll_ok : ∀ {cs cs' : Samplers F σ κ V n m} {vs : List V} {g g' : σ},
    setupAll cs g = .ok (vs, cs', g') → ∃ gs, Pass (fun c => c.setup) cs cs' vs g g' gs
  | [], _, _, g, _, h => by
      cases h
      exact ⟨_, Pass.nil _ g⟩
  | (c, k) :: cs, _, _, g, _, h => by
      unfold setupAll at h
      obtain ⟨⟨v, k1, g1⟩, h1, h⟩ := bind_ok.1 h
      obtain ⟨⟨vs1, cs1, g2⟩, h2, h⟩ := bind_ok.1 h
      cases h
      obtain ⟨gs, hp⟩ := setupAll_ok h2
      exact ⟨_, hp.cons h1⟩

theorem updateAll_ok {acc : Bool} {i : ℕ} {cur : ParamSet F n m} :
    ∀ {cs cs' : Samplers F σ κ V n m} {vs : List V} {g g' : σ},
    updateAll acc i cur cs g = .ok (vs, cs', g') →
    ∃ gs, Pass (fun c k => c.update k acc i cur) cs cs' vs g g' gs
  | [], _, _, g, _, h => by
      cases h
      exact ⟨_, Pass.nil _ g⟩
  | (c, k) :: cs, _, _, g, _, h => by
      unfold updateAll at h
      obtain ⟨⟨v, k1, g1⟩, h1, h⟩ := bind_ok.1 h
      obtain ⟨⟨vs1, cs1, g2⟩, h2, h⟩ := bind_ok.1 h
      cases h
      obtain ⟨gs, hp⟩ := updateAll_ok h2
      exact ⟨_, hp.cons h1⟩

/-- The parts of a completed run with custom samplers. -/
theorem runCustom_ok {flags : Fin N → Bool} {U : CustomFuns F V N (nS flags) m} {G : Rng σ F}
    {L : Lapack F} {fuel : ℕ} {cs : Samplers F σ κ V (nS flags) m} {o : Obj F flags m} {rng : σ}
    {up : Bool} {out : CustomOut F σ κ V flags m}
    (h : runCustom U G L fuel cs o rng up = .ok out) :
    ∃ o1 I s0 vs cs1 g, setupSimulator (U.given none) L o rng up = .ok (o1, I, s0) ∧
      setupAll cs s0.world.rng = .ok (vs, cs1, g) ∧
      customSimulator U ⟨I.problem, G, L, runOpts I.opts o1.extra, fuel⟩ ⟨withRng s0 g, cs1, vs, []⟩
        = .ok ⟨out.run.final, out.samplers, out.output, out.blocks⟩ ∧
      generateResults o1 I out.run.final = .ok out.run.results ∧ out.run.init = I ∧
      out.run.obj.chainIndex = out.run.final.chainIndex := by
  unfold runCustom at h
  obtain ⟨⟨o1, I, s0⟩, h1, h⟩ := bind_ok.1 h
  obtain ⟨⟨vs, cs1, g⟩, h2, h⟩ := bind_ok.1 h
  obtain ⟨c, h3, h⟩ := bind_ok.1 h
  obtain ⟨res, h4, h⟩ := bind_ok.1 h
  cases h
  exact ⟨o1, I, s0, vs, cs1, g, h1, h2, h3, h4, rfl, rfl⟩

end Verif
