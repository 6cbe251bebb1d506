import Verif.Lemmas.CustomRun

/-! # What is saved for custom samplers; samplers without effect -/

set_option linter.unusedSectionVars false

namespace Verif
variable {F σ κ V : Type} [PyFloat F] {N n m : ℕ}

/-- rows `a..b-1` of the arrays of a sampler -/
def sliceParts (l : List (String × List (List F))) (a b : ℕ) : List (String × List (List F)) :=
  l.map fun f => (f.1, pySlice f.2 a b)

theorem filter_zipIdx (f : CustomSampler F σ κ V n m × κ → Bool)
    (B : ℕ → CustomSampler F σ κ V n m × κ → CustomBlock F) (hB : ∀ t x, (B t x).sampler = t)
    {x : CustomSampler F σ κ V n m × κ} (hx : f x = true) :
    ∀ (l : Samplers F σ κ V n m) (t j : ℕ), l[j]? = some x →
      ((l.zipIdx t).flatMap fun y => if f y.1 then [B y.2 y.1] else []).filter
        (fun b => decide (b.sampler = t + j)) = [B (t + j) x]
  | [], _, _, h => by cases h
  | y :: l, t, 0, h => by
      simp only [List.getElem?_cons_zero, Option.some.injEq] at h
      subst h
      rw [List.zipIdx_cons, List.flatMap_cons, List.filter_append]
      simp only [hx, if_true]
      rw [List.filter_cons_of_pos (by simp [hB]), List.filter_nil, List.filter_eq_nil_iff.2]
      · rfl
      · intro b hb
        obtain ⟨z, hz, hb⟩ := List.mem_flatMap.1 hb
        split at hb
        · rw [List.mem_singleton] at hb
          subst hb
          have := (List.mem_zipIdx hz).1
          simp [hB]; omega
        · cases hb
  | y :: l, t, j + 1, h => by
      rw [List.zipIdx_cons, List.flatMap_cons, List.filter_append]
      have h1 := filter_zipIdx f B hB hx l (t + 1) j (by simpa using h)
      rw [show t + 1 + j = t + (j + 1) by omega] at h1
      rw [h1]
      split
      · rw [List.filter_cons_of_neg (by simp [hB])]; rfl
      · rfl

/-- the one block saved for sampler `j` -/
theorem filter_customBlocks {cs : Samplers F σ κ V n m} {j : ℕ} {c : CustomSampler F σ κ V n m}
    {k : κ} (hj : cs[j]? = some (c, k)) (hs : c.saveChain k = true) (a b : ℕ) :
    (customBlocks cs a b).filter (fun b => decide (b.sampler = j)) =
      [⟨j, a, b, sliceParts (c.chains k) a b⟩] := by
  have := filter_zipIdx (fun x => x.1.saveChain x.2)
    (fun t x => (⟨t, a, b, sliceParts (x.1.chains x.2) a b⟩ : CustomBlock F)) (fun _ _ => rfl)
    (x := (c, k)) hs cs 0 j hj
  rw [Nat.zero_add] at this
  exact this

theorem pySlice_take {α : Type} (l : List α) {a b i : ℕ} (h : b ≤ i) :
    pySlice (l.take i) a b = pySlice l a b := by
  unfold pySlice
  rw [List.take_take, min_eq_left h]

theorem sliceParts_of_take {l l' : List (String × List (List F))} {i a b : ℕ} (hb : b ≤ i)
    (h : l'.map (fun f => (f.1, f.2.take i)) = l.map fun f => (f.1, f.2.take i)) :
    sliceParts l' a b = sliceParts l a b := by
  have := congrArg (fun l => sliceParts l a b) h
  unfold sliceParts at this ⊢
  simpa [List.map_map, Function.comp_def, pySlice_take _ hb] using this

/-- The blocks saved so far for sampler `j`. -/
structure BlockInv (cs : Samplers F σ κ V n m) (c : CustomSampler F σ κ V n m) (j sz i : ℕ)
    (C : CustomState F σ κ V N n m) : Prop where
  fst : C.samplers.map Prod.fst = cs.map Prod.fst
  blocks : ∀ k, C.samplers[j]? = some (c, k) →
    C.blocks.filter (fun b => decide (b.sampler = j)) = (List.range ((i - 1) / sz)).map fun q =>
      ⟨j, q * sz, (q + 1) * sz, sliceParts (c.chains k) (q * sz) ((q + 1) * sz)⟩

theorem BlockInv.step {U : CustomFuns F V N n m} {E : Env F σ N n m} {cs : Samplers F σ κ V n m}
    {c : CustomSampler F σ κ V n m} {k0 : κ} {j i : ℕ} (hj : cs[j]? = some (c, k0))
    (hsave : ∀ k, c.saveChain k = true)
    (hkeep : ∀ k acc i cur a v k' g, c.update k acc i cur a = .ok (v, k', g) →
      (c.chains k').map (fun f => (f.1, f.2.take i)) = (c.chains k).map fun f => (f.1, f.2.take i))
    {C C' : CustomState F σ κ V N n m} {s' : SimState F σ N n m} {p : Proposal F σ N n m} {g : σ}
    (hsz : 1 ≤ E.opts.savesize) (hi : 1 ≤ i) (hsc : C.sim.savecount = (i - 1) % E.opts.savesize)
    (h : BlockInv cs c j E.opts.savesize i C) (hs : CustomSpec U E i C C' s' p g) :
    BlockInv cs c j E.opts.savesize (i + 1) C' := by
  obtain ⟨gs, hpass⟩ := updateAll_ok hs.update
  refine ⟨hpass.same.trans h.fst, fun k' hk' => ?_⟩
  obtain ⟨k, hk⟩ := samplers_at h.fst hj
  obtain ⟨v, k1, a, b, _, b2, _, _, b5⟩ := hpass.calls j c k hk
  rw [hk'] at b2
  cases b2
  have hkp := hkeep _ _ _ _ _ _ _ _ b5
  obtain ⟨t, rfl⟩ : ∃ t, i = t + 1 := ⟨i - 1, by omega⟩
  simp only [Nat.add_sub_cancel] at hsc ⊢
  have hmod := Nat.mod_add_div t E.opts.savesize
  have hlt := Nat.mod_lt t (show 0 < E.opts.savesize by omega)
  have hold := h.blocks k hk
  rw [Nat.add_sub_cancel] at hold
  have hold' : C.blocks.filter (fun b => decide (b.sampler = j)) =
      (List.range (t / E.opts.savesize)).map fun q => (⟨j, q * E.opts.savesize, (q + 1) * E.opts.savesize,
        sliceParts (c.chains k') (q * E.opts.savesize) ((q + 1) * E.opts.savesize)⟩ : CustomBlock F) := by
    rw [hold]
    apply List.map_congr_left
    intro q hq
    have hq' := List.mem_range.1 hq
    have h1 : (q + 1) * E.opts.savesize ≤ t / E.opts.savesize * E.opts.savesize :=
      Nat.mul_le_mul_right _ hq'
    have h2 : t / E.opts.savesize * E.opts.savesize ≤ t := Nat.div_mul_le_self _ _
    rw [sliceParts_of_take (by omega) hkp]
  rw [hs.blocks, List.filter_append, hold']
  by_cases hc : C.sim.savecount + 1 = E.opts.savesize
  · have hdiv : (t + 1) / E.opts.savesize = t / E.opts.savesize + 1 := by
      apply Nat.div_eq_of_lt_le
      · rw [Nat.add_mul, Nat.mul_comm]; omega
      · rw [Nat.add_mul, Nat.add_mul, Nat.mul_comm]; omega
    have hmul : (t / E.opts.savesize + 1) * E.opts.savesize = t + 1 := by
      rw [Nat.add_mul, Nat.mul_comm]; omega
    have hst : t + 1 - E.opts.savesize = t / E.opts.savesize * E.opts.savesize := by
      rw [← hmul, Nat.add_mul]; omega
    rw [if_pos hc, filter_customBlocks hk' (hsave _), hdiv, List.range_succ, List.map_append,
      List.map_singleton, hmul, hst]
  · have hdiv : (t + 1) / E.opts.savesize = t / E.opts.savesize := by
      apply Nat.div_eq_of_lt_le
      · rw [Nat.mul_comm]; omega
      · rw [Nat.add_mul, Nat.mul_comm]; omega
    rw [if_neg hc, hdiv, List.filter_nil, List.append_nil]

theorem LogInv.withRng {sz i : ℕ} {s0 s : SimState F σ N n m} (h : LogInv sz s0 i s) (g : σ) :
    LogInv sz s0 i (withRng s g) :=
  ⟨h.idx, h.savecount, h.lastbin, h.logs⟩

/-! ### Samplers without effect -/

/-- samplers that always succeed and leave the generator alone -/
def Quiet (cs : List (CustomSampler F σ κ V n m)) : Prop :=
  ∀ c ∈ cs, (∀ k g, ∃ v k', c.setup k g = .ok (v, k', g)) ∧
    ∀ k acc i cur g, ∃ v k', c.update k acc i cur g = .ok (v, k', g)

theorem setupAll_quiet : ∀ (cs : Samplers F σ κ V n m), Quiet (cs.map Prod.fst) → ∀ g : σ,
    ∃ vs cs', setupAll cs g = .ok (vs, cs', g) ∧ cs'.map Prod.fst = cs.map Prod.fst
  | [], _, g => ⟨[], [], rfl, rfl⟩
  | (c, k) :: cs, hq, g => by
      obtain ⟨v, k', h1⟩ := (hq c (by simp)).1 k g
      obtain ⟨vs, cs', h2, h3⟩ := setupAll_quiet cs (fun d hd => hq d (by simp at hd ⊢; exact .inr hd)) g
      refine ⟨v :: vs, (c, k') :: cs', ?_, by simp [h3]⟩
      unfold setupAll
      rw [h1, ok_bind]
      dsimp only
      rw [h2, ok_bind]

theorem updateAll_quiet {acc : Bool} {i : ℕ} {cur : ParamSet F n m} :
    ∀ (cs : Samplers F σ κ V n m), Quiet (cs.map Prod.fst) → ∀ g : σ,
    ∃ vs cs', updateAll acc i cur cs g = .ok (vs, cs', g) ∧ cs'.map Prod.fst = cs.map Prod.fst
  | [], _, g => ⟨[], [], rfl, rfl⟩
  | (c, k) :: cs, hq, g => by
      obtain ⟨v, k', h1⟩ := (hq c (by simp)).2 k acc i cur g
      obtain ⟨vs, cs', h2, h3⟩ := updateAll_quiet cs (fun d hd => hq d (by simp at hd ⊢; exact .inr hd)) g
      refine ⟨v :: vs, (c, k') :: cs', ?_, by simp [h3]⟩
      unfold updateAll
      rw [h1, ok_bind]
      dsimp only
      rw [h2, ok_bind]

theorem given_of_ignores {U : CustomFuns F V N n m}
    (hsos : ∀ a v, U.sosFun (.custom a) v = U.sosFun (.custom none) v) (c : Option (List V)) :
    (U.given c).sosFun = (U.given none).sosFun := by
  funext kw v
  cases kw
  · rfl
  · exact hsos c v

theorem customStep_quiet {U : CustomFuns F V N n m} {E : Env F σ N n m}
    (hE : ∀ vs, customEnv U E vs = E) {C : CustomState F σ κ V N n m}
    (hq : Quiet (C.samplers.map Prod.fst)) (i : ℕ) :
    (∃ e, customStep U E C i = .error e ∧ simStep E C.sim i = .error e) ∨
    ∃ C', customStep U E C i = .ok C' ∧ simStep E C.sim i = .ok C'.sim ∧
      C'.samplers.map Prod.fst = C.samplers.map Prod.fst := by
  rw [customStep_eq, hE]
  cases hp : propose E C.sim with
  | error e =>
    refine .inl ⟨e, rfl, ?_⟩
    unfold simStep
    change (propose E C.sim >>= _) = _
    rw [hp]
    rfl
  | ok p =>
    rw [ok_bind]
    cases hs : simStep E C.sim i with
    | error e => exact .inl ⟨e, rfl, rfl⟩
    | ok s' =>
      rw [ok_bind]
      obtain ⟨vs, cs', h1, h2⟩ := updateAll_quiet (acc := p.accept) (i := i) (cur := s'.oldSet)
        C.samplers hq s'.world.rng
      rw [h1, ok_bind]
      exact .inr ⟨_, rfl, rfl, h2⟩

theorem fold_quiet {U : CustomFuns F V N n m} {E : Env F σ N n m}
    (hE : ∀ vs, customEnv U E vs = E) : ∀ (l : List ℕ) (C : CustomState F σ κ V N n m),
    Quiet (C.samplers.map Prod.fst) →
    (l.foldlM (customStep U E) C).map (fun C => C.sim) = l.foldlM (simStep E) C.sim
  | [], C, _ => rfl
  | i :: l, C, hq => by
      rw [List.foldlM_cons, List.foldlM_cons]
      rcases customStep_quiet hE hq i with ⟨e, h1, h2⟩ | ⟨C', h1, h2, h3⟩
      · rw [h1, h2]; rfl
      · rw [h1, h2, ok_bind, ok_bind]
        exact fold_quiet hE l C' (by rw [h3]; exact hq)

theorem customSimulator_quiet {U : CustomFuns F V N n m} {E : Env F σ N n m}
    (hE : ∀ vs, customEnv U E vs = E) (C : CustomState F σ κ V N n m)
    (hq : Quiet (C.samplers.map Prod.fst)) :
    (customSimulator U E C).map (fun C => C.sim) = executeSimulator E C.sim := by
  unfold customSimulator executeSimulator
  have hf := fold_quiet hE (List.range' 1 (E.opts.nsimu - 1))
    { C with sim := { C.sim with
      iiadapt := 0, savecount := 0, lastbin := 0, rejected := ⟨0, 0, 0⟩ } } hq
  dsimp only at hf ⊢
  rw [← hf]
  generalize List.foldlM (customStep U E) _ _ = r
  cases r with
  | error e => rfl
  | ok C1 =>
    simp only [Except.map, ok_bind]
    cases finish E.opts.nsimu C1.sim with
    | error e => rfl
    | ok s => rfl

end Verif
