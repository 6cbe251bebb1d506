import Verif.Lemmas.Basic

/-! # What one proposal and one iteration do -/

set_option linter.unusedSectionVars false

namespace Verif
variable {F σ : Type} [PyFloat F] {N n m : ℕ}

/-- The user's function gives `ss` at the full vector `v`, through the calling convention of
`evaluate_sos_function`. -/
def SosAt (style1 : Bool) (f : Bool → Vec F N → Except PyErr (Vec F m)) (v : Vec F N)
    (ss : Vec F m) : Prop :=
  if style1 then f true v = .ok ss ∨ (f true v = .error .typeError ∧ f false v = .ok ss)
  else f false v = .ok ss

theorem evaluateSos_ok {P : Problem F N n m} {theta : Vec F n} {w w' : World F σ N}
    {ss : Vec F m} (h : evaluateSos P theta w = .ok (ss, w')) :
    SosAt P.style1 P.sosFun (writeAt P.parind theta w.value) ss ∧
    w'.value = writeAt P.parind theta w.value ∧ w'.rng = w.rng ∧
    ∃ k, w'.calls = List.replicate (k + 1) (writeAt P.parind theta w.value) ++ w.calls := by
  unfold evaluateSos at h
  unfold SosAt
  dsimp only at h
  split at h
  · rename_i hs
    simp only [hs, if_true]
    split at h
    · rename_i ss' h1
      cases h
      exact ⟨Or.inl h1, rfl, rfl, 0, rfl⟩
    · rename_i h1
      split at h
      · rename_i ss' h2
        cases h
        exact ⟨Or.inr ⟨h1, h2⟩, rfl, rfl, 1, rfl⟩
      · cases h
    · cases h
  · rename_i hs
    simp only [hs]
    split at h
    · rename_i ss' h1
      cases h
      exact ⟨by simpa using h1, rfl, rfl, 0, rfl⟩
    · cases h

theorem writeAt_fixed {parind : Fin n → Fin N} {theta : Vec F n} {value : Vec F N} {k : Fin N}
    (hk : ∀ i, parind i ≠ k) : writeAt parind theta value k = value k := by
  unfold writeAt
  have : (List.finRange n).reverse.find? (fun i => decide (parind i = k)) = none := by
    simp [List.find?_eq_none, hk]
  rw [this]

theorem writeAt_sampled {parind : Fin n → Fin N} (hinj : Function.Injective parind)
    {theta : Vec F n} {value : Vec F N} (i : Fin n) :
    writeAt parind theta value (parind i) = theta i := by
  unfold writeAt
  cases h : (List.finRange n).reverse.find? (fun j => decide (parind j = parind i)) with
  | none =>
    rw [List.find?_eq_none] at h
    exact absurd (decide_eq_true rfl) (h i (by simp))
  | some j =>
    have := List.find?_some h
    simp only [decide_eq_true_eq] at this
    rw [hinj this]

theorem isOutside_eq_false {theta lower upper : Vec F n} :
    isOutside theta lower upper = false ↔
      ∀ i, PyFloat.lt (theta i) (lower i) = false ∧ PyFloat.lt (upper i) (theta i) = false := by
  unfold isOutside
  simp only [Bool.or_eq_false_iff, List.any_eq_false, List.mem_finRange, true_implies,
    Bool.not_eq_true]
  exact ⟨fun h i => ⟨h.1 i, h.2 i⟩, fun h => ⟨fun i => (h i).1, fun i => (h i).2⟩⟩

/-- The full vectors with which the user's function was called since `w`: each one is some
vector of sampled values of a listed try written into the fixed values. -/
structure CallsExt (P : Problem F N n m) (w w' : World F σ N) (tries : List (Try F n)) : Prop where
  calls : ∃ new, w'.calls = new ++ w.calls ∧
    ∀ v ∈ new, ∃ t ∈ tries, t.outside = false ∧ (∀ k, (∀ i, P.parind i ≠ k) → v k = w.value k) ∧
      ∃ val, v = writeAt P.parind t.theta val
  value : ∀ k, (∀ i, P.parind i ≠ k) → w'.value k = w.value k

theorem CallsExt.refl (P : Problem F N n m) (w : World F σ N) (t : List (Try F n)) :
    CallsExt P w w t := ⟨⟨[], by simp, by simp⟩, fun _ _ => rfl⟩

theorem CallsExt.mono {P : Problem F N n m} {w w' : World F σ N} {t t' : List (Try F n)}
    (h : CallsExt P w w' t) (ht : t ⊆ t') : CallsExt P w w' t' := by
  obtain ⟨⟨new, h1, h2⟩, h3⟩ := h
  exact ⟨⟨new, h1, fun v hv => let ⟨t, ht', r⟩ := h2 v hv; ⟨t, ht ht', r⟩⟩, h3⟩

theorem CallsExt.trans {P : Problem F N n m} {w w1 w2 : World F σ N} {t : List (Try F n)}
    (h : CallsExt P w w1 t) (h' : CallsExt P w1 w2 t) : CallsExt P w w2 t := by
  obtain ⟨⟨new, h1, h2⟩, h3⟩ := h
  obtain ⟨⟨new', h1', h2'⟩, h3'⟩ := h'
  refine ⟨⟨new' ++ new, by rw [h1', h1]; simp, fun v hv => ?_⟩,
    fun k hk => (h3' k hk).trans (h3 k hk)⟩
  rcases List.mem_append.1 hv with hv | hv
  · obtain ⟨t, ht, ho, hf, hw⟩ := h2' v hv
    exact ⟨t, ht, ho, fun k hk => (hf k hk).trans (h3 k hk), hw⟩
  · exact h2 v hv

theorem CallsExt.rng {P : Problem F N n m} {w w1 : World F σ N} {t : List (Try F n)} {r : σ}
    (h : CallsExt P w w1 t) : CallsExt P w { w1 with rng := r } t := ⟨h.calls, h.value⟩

theorem CallsExt.eval {P : Problem F N n m} {w w1 : World F σ N} {theta : Vec F n} {ss : Vec F m}
    (h : evaluateSos P theta w = .ok (ss, w1)) {a : Bool} :
    CallsExt P w w1 [⟨theta, false, a⟩] := by
  obtain ⟨_, h2, _, k, h4⟩ := evaluateSos_ok h
  refine ⟨⟨_, h4, fun v hv => ?_⟩, fun k hk => by rw [h2]; exact writeAt_fixed hk⟩
  rw [List.eq_of_mem_replicate hv]
  exact ⟨_, List.mem_singleton_self _, rfl, fun k hk => writeAt_fixed hk, _, rfl⟩

/-- What an accepted set looks like. -/
structure AcceptedSet (P : Problem F N n m) (w : World F σ N) (s : ParamSet F n m) : Prop where
  inside : isOutside s.theta P.lower P.upper = false
  ss : ∃ val, (∀ k, (∀ i, P.parind i ≠ k) → val k = w.value k) ∧
    SosAt P.style1 P.sosFun (writeAt P.parind s.theta val) s.ss
  prior : s.prior = P.prior s.theta

/-- Facts about a first-stage step. -/
structure MetroSpec (P : Problem F N n m) (w : World F σ N) (old : ParamSet F n m)
    (o : StepOut F σ N n m) : Prop where
  calls : CallsExt P w o.world [⟨o.newSet.theta, o.outbound, o.accept⟩]
  out : o.outbound = isOutside o.newSet.theta P.lower P.upper
  acc : o.accept = true → AcceptedSet P w o.newSet
  sig : o.newSet.sigma2 = old.sigma2
  alpha : o.newSet.alpha.isSome

theorem runMetropolisStep_ok {P : Problem F N n m} {G : Rng σ F} {old : ParamSet F n m}
    {R : Mat F n} {w : World F σ N} {o : StepOut F σ N n m} {z : Vec F n}
    (h : runMetropolisStep P G old R w = .ok (o, z)) : MetroSpec P w old o := by
  unfold runMetropolisStep at h
  have hw1 : CallsExt P w (sampleCandidate G old.theta R w).2.2 [] :=
    CallsExt.rng (CallsExt.refl _ _ _)
  generalize sampleCandidate G old.theta R w = c at h hw1
  dsimp only at h
  split at h
  · rename_i ho
    cases h
    exact ⟨hw1.mono (by simp), ho.symm, by simp, rfl, rfl⟩
  · rename_i ho
    simp only [Bool.not_eq_true] at ho
    rw [bind_ok] at h
    obtain ⟨e, h1, h2⟩ := h
    generalize calcLogPosteriorRatio (F := F) _ _ _ _ = alpha at h2
    simp only [logPosteriorRatioTest] at h2
    cases h2
    have h3 := CallsExt.eval (a := PyFloat.lt (PyFloat.log (G.rand e.2.rng).1) alpha) h1
    obtain ⟨h4, -⟩ := evaluateSos_ok h1
    exact ⟨CallsExt.rng ((hw1.mono (by simp)).trans h3), ho.symm,
      fun _ => ⟨ho, ⟨_, hw1.value, h4⟩, rfl⟩, rfl, rfl⟩

/-- Facts about the delayed-rejection loop started in `o0` (nothing accepted yet). -/
structure DrSpec (P : Problem F N n m) (old : ParamSet F n m) (sigma2 : Vec F m)
    (o0 o : DrOut F σ N n m) (ts : List (Try F n)) : Prop where
  tries : o.tries = o0.tries ++ ts
  calls : CallsExt P o0.world o.world ts
  out : ∀ t ∈ ts, t.outside = isOutside t.theta P.lower P.upper
  rej : o.accept = false → (∀ t ∈ ts, t.accepted = false) ∧ o.count.iacce = o0.count.iacce ∧
    (ts = [] → o.outSet = o0.outSet) ∧
    (ts ≠ [] → ∃ ob, o.outSet = some (old, ob) ∧ (ob = true → ∃ t ∈ ts, t.outside = true))
  acc : o.accept = true → ∃ s, o.outSet = some (s, false) ∧ AcceptedSet P o0.world s ∧
    s.sigma2 = sigma2 ∧ s.alpha.isSome ∧
    (∃ pre, ts = pre ++ [⟨s.theta, false, true⟩] ∧ ∀ t ∈ pre, t.accepted = false) ∧
    ∃ c, o0.count.iacce[o.tries.length]? = some c ∧
      o.count.iacce = o0.count.iacce.set o.tries.length (c + 1)

theorem AcceptedSet.world {P : Problem F N n m} {w w1 : World F σ N} {s : ParamSet F n m}
    (h : AcceptedSet P w1 s) (hw : ∀ k, (∀ i, P.parind i ≠ k) → w1.value k = w.value k) :
    AcceptedSet P w s := by
  obtain ⟨h1, ⟨val, h2, h3⟩, h4⟩ := h
  exact ⟨h1, ⟨val, fun k hk => (h2 k hk).trans (hw k hk), h3⟩, h4⟩

theorem DrSpec.cons {P : Problem F N n m} {old : ParamSet F n m} {sigma2 : Vec F m}
    {o0 o1 o : DrOut F σ N n m} {t : Try F n} {ts : List (Try F n)}
    (ht : o1.tries = o0.tries ++ [t]) (hc : CallsExt P o0.world o1.world [t])
    (ho : t.outside = isOutside t.theta P.lower P.upper) (ha : t.accepted = false)
    (hi : o1.count.iacce = o0.count.iacce)
    (hs : ∃ ob, o1.outSet = some (old, ob) ∧ (ob = true → t.outside = true))
    (h : DrSpec P old sigma2 o1 o ts) : DrSpec P old sigma2 o0 o (t :: ts) where
  tries := by rw [h.tries, ht]; simp
  calls := (hc.mono (by simp)).trans (h.calls.mono (by simp))
  out := by
    intro t' ht'
    rcases List.mem_cons.1 ht' with rfl | ht'
    · exact ho
    · exact h.out t' ht'
  rej := by
    intro hr
    obtain ⟨h1, h2, h3, h4⟩ := h.rej hr
    refine ⟨?_, h2.trans hi, by simp, fun _ => ?_⟩
    · intro t' ht'
      rcases List.mem_cons.1 ht' with rfl | ht'
      · exact ha
      · exact h1 t' ht'
    · by_cases hts : ts = []
      · obtain ⟨ob, h5, h6⟩ := hs
        exact ⟨ob, (h3 hts).trans h5, fun hb => ⟨t, by simp, h6 hb⟩⟩
      · obtain ⟨ob, h5, h6⟩ := h4 hts
        exact ⟨ob, h5, fun hb => let ⟨t', h7, h8⟩ := h6 hb; ⟨t', by simp [h7], h8⟩⟩
  acc := by
    intro hr
    obtain ⟨s, h1, h2, h3, h3', ⟨pre, h4, h5⟩, c, h6, h7⟩ := h.acc hr
    refine ⟨s, h1, h2.world hc.value, h3, h3', ⟨t :: pre, by rw [h4]; simp, ?_⟩, c, ?_, ?_⟩
    · intro t' ht'
      rcases List.mem_cons.1 ht' with rfl | ht'
      · exact ha
      · exact h5 t' ht'
    · rw [← hi]; exact h6
    · rw [h7, hi]

theorem drLoop_ok {P : Problem F N n m} {G : Rng σ F} {old : ParamSet F n m} {sigma2 : Vec F m}
    {RDR : Slot (List (Mat F n))} {invR : Option (List (Mat F n))} :
    ∀ (left itry : ℕ) (path : List (ParamSet F n m)) (o0 o : DrOut F σ N n m),
    o0.accept = false → itry = o0.tries.length + 1 →
    drLoop P G old sigma2 RDR invR left itry path o0 = .ok o →
    ∃ ts, DrSpec P old sigma2 o0 o ts ∧ ts.length ≤ left ∧ (o.accept = false → ts.length = left)
  | 0, itry, path, o0, o, ha, _, h => by
      rw [drLoop] at h
      cases h
      exact ⟨[], ⟨by simp, CallsExt.refl _ _ _, by simp,
        fun _ => ⟨by simp, rfl, fun _ => rfl, by simp⟩, by simp [ha]⟩, le_rfl, fun _ => rfl⟩
  | left + 1, itry, path, o0, o, ha, hi, h => by
      rw [drLoop] at h
      rw [bind_ok] at h
      obtain ⟨R, -, h⟩ := h
      have hw1 : CallsExt P o0.world (sampleCandidate G old.theta R o0.world).2.2 [] :=
        CallsExt.rng (CallsExt.refl _ _ _)
      generalize sampleCandidate G old.theta R o0.world = cand at h hw1
      dsimp only at h
      split at h
      · rename_i ho
        obtain ⟨ts, h1, h2, h3⟩ := drLoop_ok left _ _ _ o (by exact ha) (by simp [hi]) h
        refine ⟨⟨cand.1, true, false⟩ :: ts, DrSpec.cons (o1 := _) ?_ ?_ ho.symm rfl ?_ ?_ h1,
          by simpa using h2, by simpa using h3⟩
        · rfl
        · exact hw1.mono (by simp)
        · rfl
        · exact ⟨true, rfl, fun _ => rfl⟩
      · rename_i ho
        simp only [Bool.not_eq_true] at ho
        rw [bind_ok] at h
        obtain ⟨e, hss, h⟩ := h
        rw [bind_ok] at h
        obtain ⟨inv, -, h⟩ := h
        rw [bind_ok] at h
        obtain ⟨ac, -, h⟩ := h
        rw [bind_ok] at h
        obtain ⟨oi, hoi, h⟩ := h
        rw [bind_ok] at h
        obtain ⟨iacce, hia, h⟩ := h
        rw [pyGet_ok] at hoi
        rw [pySet_ok] at hia
        have hev := evaluateSos_ok hss
        have hce : CallsExt P o0.world (posteriorRatioTest G ac.1 e.2).2
            [⟨cand.1, false, (posteriorRatioTest G ac.1 e.2).1⟩] := by
          have h1 := (hw1.mono (by simp)).trans
            (CallsExt.eval (a := (posteriorRatioTest G ac.1 e.2).1) hss)
          unfold posteriorRatioTest at h1 ⊢
          split
          · rename_i h2; simpa only [h2, if_true] using h1
          · rename_i h2
            simp only [h2, if_false, Bool.false_eq_true] at h1
            exact CallsExt.rng h1
        generalize posteriorRatioTest G ac.1 e.2 = test at h hia hce
        obtain ⟨acc, w3⟩ := test
        cases acc with
        | true =>
          simp only [if_true] at h hia
          cases h
          refine ⟨[⟨cand.1, false, true⟩],
            ⟨rfl, hce, by simp [ho], by simp, fun _ => ?_⟩, by simp, by simp⟩
          refine ⟨_, rfl, ⟨ho, ⟨_, hw1.value, hev.1⟩, rfl⟩, rfl, rfl, ⟨[], rfl, by simp⟩, oi, ?_, ?_⟩
          · simp only [List.length_append, List.length_singleton]
            rw [← hoi, hi]
            rfl
          · simp only [List.length_append, List.length_singleton]
            rw [hia.2, hi]
            rfl
        | false =>
          simp only [if_false, Bool.false_eq_true] at h hia
          obtain ⟨ts, h1, h2, h3⟩ := drLoop_ok left _ _ _ o rfl (by simp [hi]) h
          refine ⟨_ :: ts, DrSpec.cons rfl hce ho.symm rfl ?_
            ⟨false, rfl, by simp⟩ h1, by simpa using h2, by simpa using h3⟩
          simp only [hia.2, Nat.add_zero]
          obtain ⟨hlt, heq⟩ := List.getElem?_eq_some_iff.1 hoi
          rw [← heq, List.set_getElem_self]

/-- Facts about the proposal part of one iteration. -/
structure ProposeSpec (P : Problem F N n m) (ntry : ℕ) (s : SimState F σ N n m)
    (p : Proposal F σ N n m) : Prop where
  ne : p.tries ≠ []
  len : p.tries.length ≤ max ntry 1
  lenRej : p.accept = false → p.tries.length = max ntry 1
  out : ∀ t ∈ p.tries, t.outside = isOutside t.theta P.lower P.upper
  calls : CallsExt P s.world p.world p.tries
  rej : p.accept = false → (∀ t ∈ p.tries, t.accepted = false) ∧ p.dr.iacce = s.dr.iacce ∧
    (p.outbound = true → ∃ t ∈ p.tries, t.outside = true)
  acc : p.accept = true → AcceptedSet P s.world p.newSet ∧ p.newSet.sigma2 = s.oldSet.sigma2 ∧
    p.newSet.alpha.isSome ∧
    ∃ pre, p.tries = pre ++ [⟨p.newSet.theta, false, true⟩] ∧ (∀ t ∈ pre, t.accepted = false) ∧
      (pre = [] → p.dr.iacce = s.dr.iacce) ∧
      (pre ≠ [] → ∃ c, s.dr.iacce[pre.length]? = some c ∧
        p.dr.iacce = s.dr.iacce.set pre.length (c + 1))

theorem propose_ok {E : Env F σ N n m} {s : SimState F σ N n m} {p : Proposal F σ N n m}
    (h : propose E s = .ok p) : ProposeSpec E.problem E.opts.ntry s p := by
  unfold propose at h
  rw [bind_ok] at h
  obtain ⟨⟨o, z⟩, h1, h⟩ := h
  have hm := runMetropolisStep_ok h1
  dsimp only at h
  split at h
  · rename_i hc
    rw [bind_ok] at h
    obtain ⟨⟨o2, dr, ts⟩, h2, h⟩ := h
    cases h
    unfold runDelayedRejection at h2
    rw [bind_ok] at h2
    obtain ⟨d, hd, h2⟩ := h2
    obtain ⟨ts', hs, hl, hl'⟩ := drLoop_ok _ 1 _ ⟨false, none, o.world, s.dr, []⟩ _ rfl rfl hd
    have htr : d.tries = ts' := by simpa using hs.tries
    have hne : ts' ≠ [] → True := fun _ => trivial
    cases hda : d.accept with
    | false =>
      obtain ⟨hr1, hr2, hr3, hr4⟩ := hs.rej hda
      have hlen := hl' hda
      have : ts' ≠ [] := by intro h0; rw [h0] at hlen; simp at hlen; omega
      obtain ⟨ob, ho1, ho2⟩ := hr4 this
      rw [ho1] at h2
      simp only [Except.ok.injEq, Prod.mk.injEq] at h2
      obtain ⟨rfl, rfl, rfl⟩ := h2
      rw [htr]
      refine ⟨by simp, by simp; omega, fun _ => by simp; omega, ?_, ?_, fun _ => ⟨?_, hr2, ?_⟩,
        by simp [hda]⟩
      · intro t ht
        rcases List.mem_cons.1 ht with rfl | ht
        · exact hm.out
        · exact hs.out t ht
      · exact (hm.calls.mono (by simp)).trans (hs.calls.mono (by simp))
      · intro t ht
        rcases List.mem_cons.1 ht with rfl | ht
        · exact hc.2
        · exact hr1 t ht
      · intro hb
        obtain ⟨t, ht1, ht2⟩ := ho2 hb
        exact ⟨t, by simp [ht1], ht2⟩
    | true =>
      obtain ⟨st, ha1, ha2, ha3, ha3', ⟨pre, ha4, ha5⟩, c, ha6, ha7⟩ := hs.acc hda
      rw [ha1] at h2
      simp only [Except.ok.injEq, Prod.mk.injEq] at h2
      obtain ⟨rfl, rfl, rfl⟩ := h2
      rw [htr] at ha6 ha7 ⊢
      refine ⟨by simp, by simp; omega, by simp [hda], ?_, ?_, by simp [hda], fun _ => ?_⟩
      · intro t ht
        rcases List.mem_cons.1 ht with rfl | ht
        · exact hm.out
        · exact hs.out t ht
      · exact (hm.calls.mono (by simp)).trans (hs.calls.mono (by simp))
      · refine ⟨ha2.world hm.calls.value, ha3.trans hm.sig, ha3', _ :: pre,
          by rw [ha4]; rfl, ?_, by simp, fun _ => ⟨c, ?_, ?_⟩⟩
        · intro t ht
          rcases List.mem_cons.1 ht with rfl | ht
          · exact hc.2
          · exact ha5 t ht
        · rw [ha4] at ha6; simpa using ha6
        · rw [ha4] at ha7; simpa using ha7
  · rename_i hc
    cases h
    refine ⟨by simp, by simp, fun hf => ?_, by simpa using hm.out, hm.calls, fun hf => ⟨by simpa using hf, rfl, ?_⟩,
      fun ha => ⟨hm.acc ha, hm.sig, hm.alpha, [], ?_, by simp, fun _ => rfl, by simp⟩⟩
    · have : ¬ 1 < E.opts.ntry := fun h => hc ⟨h, hf⟩
      simp; omega
    · intro hb; exact ⟨_, List.mem_singleton_self _, hb⟩
    · have : o.outbound = false := by rw [hm.out, (hm.acc ha).inside]
      simp only [List.nil_append]
      rw [show o.accept = true from ha, this]

/-- the set that is current after the iteration, before a new error variance is drawn -/
def currentSet (s : SimState F σ N n m) (p : Proposal F σ N n m) : ParamSet F n m :=
  if p.accept then p.newSet else s.oldSet

/-- Whether an adaptation takes place. -/
def adaptNow (E : Env F σ N n m) (s : SimState F σ N n m) : Prop :=
  0 < E.opts.adaptint ∧ ((s.iiadapt + 1 : ℕ) : ℤ) = E.opts.adaptint

instance (E : Env F σ N n m) (s : SimState F σ N n m) : Decidable (adaptNow E s) := by
  unfold adaptNow; infer_instance

theorem record_ok {s s' : SimState F σ N n m} {p : Proposal F σ N n m}
    (h : record s p = .ok s') : s.chainIndex < s.chain.length ∧ s.chainIndex < s.sschain.length ∧
    s' = { s with
      chain := s.chain.set s.chainIndex (currentSet s p).theta
      sschain := s.sschain.set s.chainIndex (currentSet s p).ss
      oldSet := currentSet s p
      rejected := if p.accept then s.rejected else ⟨s.rejected.total + 1, s.rejected.inInterval + 1,
        s.rejected.outside + if p.outbound then 1 else 0⟩
      world := p.world, dr := p.dr, trace := s.trace ++ [p.tries]
      moveLog := s.moveLog ++ [⟨s.oldSet, s.cov.R, s.cov.RDR, s.cov.invR, s.world.rng, p.world.rng⟩] } := by
  unfold record at h
  rw [bind_ok] at h
  obtain ⟨c, hc, h⟩ := h
  rw [bind_ok] at h
  obtain ⟨ss, hss, h⟩ := h
  rw [pySet_ok] at hc hss
  obtain ⟨hc1, rfl⟩ := hc
  obtain ⟨hss1, rfl⟩ := hss
  exact ⟨hc1, hss1, (Except.ok.inj h).symm⟩

theorem adapt_ok {E : Env F σ N n m} {i : ℕ} {s s' : SimState F σ N n m} {p : Proposal F σ N n m}
    (h : adapt E i s p = .ok s') :
    (if 0 < E.opts.adaptint ∧ (s.iiadapt : ℤ) = E.opts.adaptint then
      runAdaptation E.lapack s.cov E.opts.toAdaptOpts i s.iiadapt s.rejected
        s.chain s.chainIndex p.u p.newSet.alpha = .ok s'.cov
      else s'.cov = s.cov) ∧
    s' = { s with
      cov := s'.cov
      iiadapt := if 0 < E.opts.adaptint ∧ (s.iiadapt : ℤ) = E.opts.adaptint then 0 else s.iiadapt
      rejected := { s.rejected with inInterval :=
        if 0 < E.opts.adaptint ∧ (s.iiadapt : ℤ) = E.opts.adaptint then 0
        else s.rejected.inInterval }
      adaptedAt := s.adaptedAt ++
        if 0 < E.opts.adaptint ∧ (s.iiadapt : ℤ) = E.opts.adaptint then [i] else []
      adaptLog := s.adaptLog ++
        if 0 < E.opts.adaptint ∧ (s.iiadapt : ℤ) = E.opts.adaptint then
          [⟨i, s.cov, s'.cov, p.u, p.newSet.alpha⟩] else [] } := by
  unfold adapt at h
  split at h
  · rename_i hc
    rw [bind_ok] at h
    obtain ⟨cov, hcov, h⟩ := h
    cases h
    simp only [hc, and_self, if_true, true_and]
    exact ⟨hcov, trivial⟩
  · rename_i hc
    cases h
    simp only [hc, if_false, true_and]
    simp

theorem sampleSigma_ok {E : Env F σ N n m} {s s' : SimState F σ N n m}
    (h : sampleSigma E s = .ok s') :
    (if E.opts.updatesigma then
      ∃ c r, s.s2chain = some c ∧ s.chainIndex < c.length ∧
        s'.s2chain = some (c.set s.chainIndex s'.errModel.sigma2) ∧
        updateErrorVariance E.rng E.fuel s.oldSet.ss s.errModel s.world.rng = .ok (s'.errModel, r) ∧
        s'.world.rng = r
      else s'.errModel = s.errModel ∧ s'.s2chain = s.s2chain ∧ s'.world.rng = s.world.rng) ∧
    s' = { s with
      errModel := s'.errModel, s2chain := s'.s2chain, world := { s.world with rng := s'.world.rng }
      oldSet := { s.oldSet with sigma2 := if E.opts.updatesigma then s'.errModel.sigma2
        else s.oldSet.sigma2 }
      sigmaLog := s.sigmaLog ++ if E.opts.updatesigma then [⟨s.oldSet.ss, s.errModel, s'.errModel⟩]
        else [] } := by
  unfold sampleSigma at h
  split at h
  · rename_i hu
    rw [bind_ok] at h
    obtain ⟨⟨M, r⟩, hM, h3⟩ := h
    rw [bind_ok] at h3
    obtain ⟨c2, hc2, h3⟩ := h3
    rw [bind_ok] at h3
    obtain ⟨c3, hc3, h3⟩ := h3
    rw [orRaise_ok] at hc2
    rw [pySet_ok] at hc3
    obtain ⟨hc3, rfl⟩ := hc3
    cases h3
    simp only [hu, if_true]
    exact ⟨⟨c2, r, hc2, hc3, rfl, hM, rfl⟩, trivial⟩
  · rename_i hu
    cases h
    simp [hu]

theorem saveStep_eq (E : Env F σ N n m) (i : ℕ) (s : SimState F σ N n m) :
    saveStep E i s = { s with
      savecount := if s.savecount = E.opts.savesize then 0 else s.savecount
      lastbin := if s.savecount = E.opts.savesize then i else s.lastbin
      logs := s.logs ++ if s.savecount = E.opts.savesize then
        [mkBlock s (i - E.opts.savesize) i] else []
      covlogs := (saveStep E i s).covlogs } := by
  unfold saveStep
  split <;> simp

/-- The effect of one iteration. -/
structure StepSpec (E : Env F σ N n m) (i : ℕ) (s s' : SimState F σ N n m)
    (p : Proposal F σ N n m) : Prop where
  prop : propose E s = .ok p
  idx : s'.chainIndex = s.chainIndex + 1
  lt : s.chainIndex + 1 < s.chain.length
  lt' : s.chainIndex + 1 < s.sschain.length
  chain : s'.chain = s.chain.set (s.chainIndex + 1) (currentSet s p).theta
  sschain : s'.sschain = s.sschain.set (s.chainIndex + 1) (currentSet s p).ss
  old : s'.oldSet = { currentSet s p with sigma2 := s'.oldSet.sigma2 }
  oldSig : s'.oldSet.sigma2 = if E.opts.updatesigma then s'.errModel.sigma2
    else (currentSet s p).sigma2
  trace : s'.trace = s.trace ++ [p.tries]
  moveLog : s'.moveLog = s.moveLog ++ [⟨s.oldSet, s.cov.R, s.cov.RDR, s.cov.invR, s.world.rng, p.world.rng⟩]
  dr : s'.dr = p.dr
  rejTotal : s'.rejected.total = s.rejected.total + if p.accept then 0 else 1
  rejOut : s'.rejected.outside = s.rejected.outside + if p.accept = false ∧ p.outbound = true then 1 else 0
  rejIn : s'.rejected.inInterval = if adaptNow E s then 0
    else s.rejected.inInterval + if p.accept then 0 else 1
  iiadapt : s'.iiadapt = if adaptNow E s then 0 else s.iiadapt + 1
  adaptedAt : s'.adaptedAt = s.adaptedAt ++ if adaptNow E s then [i] else []
  adaptLog : s'.adaptLog = s.adaptLog ++
    if adaptNow E s then [⟨i, s.cov, s'.cov, p.u, p.newSet.alpha⟩] else []
  sigmaLog : s'.sigmaLog = s.sigmaLog ++
    if E.opts.updatesigma then [⟨(currentSet s p).ss, s.errModel, s'.errModel⟩] else []
  cov : if adaptNow E s then
      runAdaptation E.lapack s.cov E.opts.toAdaptOpts i (s.iiadapt + 1)
        (if p.accept then s.rejected else ⟨s.rejected.total + 1, s.rejected.inInterval + 1,
          s.rejected.outside + if p.outbound then 1 else 0⟩)
        s'.chain (s.chainIndex + 1) p.u p.newSet.alpha = .ok s'.cov
    else s'.cov = s.cov
  calls : s'.world.calls = p.world.calls
  value : s'.world.value = p.world.value
  savecount : s'.savecount = if s.savecount + 1 = E.opts.savesize then 0 else s.savecount + 1
  lastbin : s'.lastbin = if s.savecount + 1 = E.opts.savesize then i else s.lastbin
  logs : s'.logs = s.logs ++ if s.savecount + 1 = E.opts.savesize then
    [mkBlock s' (i - E.opts.savesize) i] else []
  logSource : s'.logSource = s.logSource
  errModel : if E.opts.updatesigma then
      ∃ c r, s.s2chain = some c ∧ s.chainIndex + 1 < c.length ∧
        s'.s2chain = some (c.set (s.chainIndex + 1) s'.errModel.sigma2) ∧
        updateErrorVariance E.rng E.fuel (currentSet s p).ss s.errModel p.world.rng
          = .ok (s'.errModel, r) ∧ s'.world.rng = r
    else s'.errModel = s.errModel ∧ s'.s2chain = s.s2chain ∧ s'.world.rng = p.world.rng

theorem simStep_ok {E : Env F σ N n m} {s s' : SimState F σ N n m} {i : ℕ}
    (h : simStep E s i = .ok s') : ∃ p, StepSpec E i s s' p := by
  unfold simStep at h
  rw [bind_ok] at h
  obtain ⟨p, hp, h⟩ := h
  rw [bind_ok] at h
  obtain ⟨s1, h1, h⟩ := h
  rw [bind_ok] at h
  obtain ⟨s2, h2, h⟩ := h
  rw [bind_ok] at h
  obtain ⟨s3, h3, h⟩ := h
  refine ⟨p, ?_⟩
  replace h := (Except.ok.inj h).symm
  obtain ⟨hl, hl', h1⟩ := record_ok h1
  obtain ⟨hcov, h2⟩ := adapt_ok h2
  obtain ⟨hsig, h3⟩ := sampleSigma_ok h3
  rw [saveStep_eq] at h
  generalize (saveStep E i s3).covlogs = cl at h
  generalize s2.cov = cov at h2 hcov
  generalize s3.errModel = M at h3 hsig
  generalize s3.s2chain = s2c at h3 hsig
  generalize s3.world.rng = r at h3 hsig
  subst h1
  subst h2
  subst h3
  subst h
  constructor
  case prop => exact hp
  case lt => exact hl
  case lt' => exact hl'
  case idx => rfl
  case chain => rfl
  case sschain => rfl
  case old => rfl
  case oldSig => rfl
  case trace => rfl
  case dr => rfl
  case rejTotal => dsimp only; split <;> simp_all
  case rejOut => dsimp only; split <;> simp_all
  case rejIn =>
    by_cases ha : p.accept = true <;> simp [ha, adaptNow]
  case iiadapt => rfl
  case adaptedAt => rfl
  case adaptLog => rfl
  case sigmaLog => rfl
  case moveLog => rfl
  case cov => exact hcov
  case calls => rfl
  case value => rfl
  case savecount => rfl
  case lastbin => rfl
  case logs => rfl
  case logSource => rfl
  case errModel => exact hsig

end Verif
