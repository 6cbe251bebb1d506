import Verif.Lemmas.Custom
import Verif.Lemmas.StageRun
import Verif.Spec.Custom

/-! # The protocol of custom samplers -/

set_option linter.unusedSectionVars false

namespace Verif
variable {F σ κ V : Type} [PyFloat F] {N n m : ℕ}

/-- what is known of iteration `i` when it is over -/
def IterOk (U : CustomFuns F V N n m) (P : Problem F N n m) (G : Rng σ F) (ntry : ℕ) (fixed : Vec F N)
    (cs : Samplers F σ κ V n m) (start : Prop) (b : ℕ) (K : ℕ → List κ) (O : ℕ → List V) (Γ : ℕ → List σ) (i : ℕ)
    (s : SimState F σ N n m) : Prop :=
  ∃ ts cur mv, s.trace[i - 1]? = some ts ∧ s.chain[b + i]? = some cur.theta ∧
    s.sschain[b + i]? = some cur.ss ∧ (∀ c, s.s2chain = some c → c[b + i]? = some cur.sigma2) ∧
    (1 < i ∨ start → s.chain[b + i - 1]? = some mv.before.theta ∧
      s.sschain[b + i - 1]? = some mv.before.ss) ∧
    s.moveLog[i - 1]? = some mv ∧ (Γ (i - 1))[cs.length]? = some mv.rng ∧
    ((Rejection ts = true ∧ cur.theta = mv.before.theta ∧ cur.ss = mv.before.ss) ∨
      (Rejection ts = false ∧ isOutside cur.theta P.lower P.upper = false ∧
        ∃ v, (∀ k, (∀ i, P.parind i ≠ k) → v k = fixed k) ∧
          SosAt P.style1 (U.given (some (O (i - 1)))).sosFun (writeAt P.parind cur.theta v)
            cur.ss)) ∧
    Iteration (InsideOf P) (SosOf { P with sosFun := (U.given (some (O (i - 1)))).sosFun } fixed) P.prior
      G mv.before mv.R mv.RDR mv.invR ntry mv.rng ts mv.rngAfter ∧
    Move mv.before.theta cur.theta ts ∧
    ∀ (j : ℕ) (c : CustomSampler F σ κ V n m) k0, cs[j]? = some (c, k0) →
      ∃ k v k' a g, (K (i - 1))[j]? = some k ∧ (O i)[j]? = some v ∧ (K i)[j]? = some k' ∧
        (Γ i)[j]? = some a ∧ (Γ i)[j + 1]? = some g ∧
        c.update k (!Rejection ts) i cur a = .ok (v, k', g)

/-- Invariant of the loop with custom samplers, before iteration `i`. -/
structure CustomInv (U : CustomFuns F V N n m) (E : Env F σ N n m) (cs : Samplers F σ κ V n m)
    (start : Prop) (s0 : SimState F σ N n m) (K : ℕ → List κ) (O : ℕ → List V) (Γ : ℕ → List σ)
    (i : ℕ) (c : CustomState F σ κ V N n m) : Prop where
  idx : c.sim.chainIndex + 1 = s0.chainIndex + i
  tlen : c.sim.trace.length + 1 = i
  mlen : c.sim.moveLog.length + 1 = i
  cur : 1 < i ∨ start → c.sim.chain[c.sim.chainIndex]? = some c.sim.oldSet.theta
  cur' : 1 < i ∨ start → c.sim.sschain[c.sim.chainIndex]? = some c.sim.oldSet.ss
  value : ∀ k, (∀ i, E.problem.parind i ≠ k) → c.sim.world.value k = s0.world.value k
  s2none : E.opts.updatesigma = false → c.sim.s2chain = none
  fst : c.samplers.map Prod.fst = cs.map Prod.fst
  snd : c.samplers.map Prod.snd = K (i - 1)
  output : c.output = O (i - 1)
  rng : (Γ (i - 1))[cs.length]? = some c.sim.world.rng
  lens : ∀ t, t < i → (K t).length = cs.length ∧ (O t).length = cs.length ∧
    (Γ t).length = cs.length + 1
  setup : ∀ (j : ℕ) (c : CustomSampler F σ κ V n m) k, cs[j]? = some (c, k) →
    ∃ v k' a g, (O 0)[j]? = some v ∧ (K 0)[j]? = some k' ∧ (Γ 0)[j]? = some a ∧
      (Γ 0)[j + 1]? = some g ∧ c.setup k a = .ok (v, k', g)
  iters : ∀ t, 1 ≤ t → t < i → IterOk U E.problem E.rng E.opts.ntry s0.world.value cs start s0.chainIndex K O Γ t c.sim

theorem getElem?_map_fst {α β : Type} {l : List (α × β)} {j : ℕ} {a : α} {b : β}
    (h : l[j]? = some (a, b)) : (l.map Prod.fst)[j]? = some a := by
  simp [h]

theorem getElem?_map_snd {α β : Type} {l : List (α × β)} {j : ℕ} {a : α} {b : β}
    (h : l[j]? = some (a, b)) : (l.map Prod.snd)[j]? = some b := by
  simp [h]

/-- a sampler of the run is still there, in some state -/
theorem samplers_at {cs cs' : Samplers F σ κ V n m} (h : cs'.map Prod.fst = cs.map Prod.fst) {j : ℕ}
    {c : CustomSampler F σ κ V n m} {k : κ} (hj : cs[j]? = some (c, k)) :
    ∃ k', cs'[j]? = some (c, k') := by
  have h1 : (cs'.map Prod.fst)[j]? = some c := by rw [h]; exact getElem?_map_fst hj
  rw [List.getElem?_map, Option.map_eq_some_iff] at h1
  obtain ⟨⟨c', k'⟩, h2, h3⟩ := h1
  exact ⟨k', by rw [h2, ← h3]⟩

theorem propose_accept {E : Env F σ N n m} {s : SimState F σ N n m} {p : Proposal F σ N n m}
    (h : propose E s = .ok p) : p.accept = !Rejection p.tries := by
  have hp := propose_ok h
  unfold Rejection
  cases ha : p.accept with
  | false =>
    have : (p.tries.all fun t => !t.accepted) = true := by
      simpa [List.all_eq_true] using (hp.rej ha).1
    simp [this]
  | true =>
    obtain ⟨_, _, _, pre, h1, h2, _⟩ := hp.acc ha
    simp [h1]

theorem CustomInv.step {U : CustomFuns F V N n m} {E : Env F σ N n m} {cs : Samplers F σ κ V n m}
    {start : Prop} {s0 : SimState F σ N n m} {K : ℕ → List κ} {O : ℕ → List V} {Γ : ℕ → List σ} {i : ℕ}
    {c c' : CustomState F σ κ V N n m} {s' : SimState F σ N n m} {p : Proposal F σ N n m} {g : σ}
    (hi : 1 ≤ i) (h : CustomInv U E cs start s0 K O Γ i c) (hs : CustomSpec U E i c c' s' p g) :
    ∃ K' O' Γ', CustomInv U E cs start s0 K' O' Γ' (i + 1) c' := by
  obtain ⟨gs, hpass⟩ := updateAll_ok hs.update
  have hst := hs.step
  have hidx := h.idx
  have htl := h.tlen
  have hml := h.mlen
  have hlt := hst.lt
  have hlt' := hst.lt'
  have hlen : c.samplers.length = cs.length := by simpa using congrArg List.length h.fst
  have hsig := hst.errModel
  have hacc := propose_accept hst.prop
  have e1 : c'.sim.chain = c.sim.chain.set (c.sim.chainIndex + 1) (currentSet c.sim p).theta := by
    rw [hs.sim]; exact hst.chain
  have e2 : c'.sim.sschain = c.sim.sschain.set (c.sim.chainIndex + 1) (currentSet c.sim p).ss := by
    rw [hs.sim]; exact hst.sschain
  have e3 : c'.sim.trace = c.sim.trace ++ [p.tries] := by rw [hs.sim]; exact hst.trace
  have e4 : c'.sim.moveLog = c.sim.moveLog ++ [⟨c.sim.oldSet, c.sim.cov.R, c.sim.cov.RDR,
      c.sim.cov.invR, c.sim.world.rng, p.world.rng⟩] := by rw [hs.sim]; exact hst.moveLog
  have e5 : c'.sim.s2chain = s'.s2chain := by rw [hs.sim]; rfl
  have e6 : c'.sim.chainIndex = c.sim.chainIndex + 1 := by rw [hs.sim]; exact hst.idx
  have e7 : c'.sim.oldSet = s'.oldSet := by rw [hs.sim]; rfl
  have hth : s'.oldSet.theta = (currentSet c.sim p).theta := by rw [hst.old]
  have hss : s'.oldSet.ss = (currentSet c.sim p).ss := by rw [hst.old]
  refine ⟨Function.update K i (c'.samplers.map Prod.snd), Function.update O i c'.output,
    Function.update Γ i gs, ?_⟩
  have upd : ∀ {α : Type} (f : ℕ → α) (x : α) (t : ℕ), t < i → Function.update f i x t = f t :=
    fun f x t ht => Function.update_of_ne (by omega) _ _
  refine ⟨by rw [e6]; omega, by rw [e3]; simp; omega, by rw [e4]; simp; omega, ?_, ?_, ?_, ?_, ?_, ?_,
    ?_, ?_, ?_, ?_, ?_⟩
  · intro _; rw [e1, e6, e7, hth, List.getElem?_set_self hlt]
  · intro _; rw [e2, e6, e7, hss, List.getElem?_set_self hlt']
  · intro k hk
    have : c'.sim.world.value = p.world.value := by rw [hs.sim]; exact hst.value
    rw [this]
    exact ((propose_ok hst.prop).calls.value k hk).trans (h.value k hk)
  · intro hu
    have hsig' := hsig
    rw [if_neg (by change ¬ E.opts.updatesigma = true; simp [hu])] at hsig'
    rw [e5, hsig'.2.1]
    exact h.s2none hu
  · exact hpass.same.trans h.fst
  · simp
  · simp
  · rw [hs.sim]
    simpa [withRng, hlen] using hpass.last
  · intro t ht
    rcases Nat.lt_succ_iff_lt_or_eq.1 ht with ht | rfl
    · rw [upd _ _ _ ht, upd _ _ _ ht, upd _ _ _ ht]; exact h.lens t ht
    · simp only [Function.update_self]
      refine ⟨?_, by rw [hpass.len, hlen], by rw [hpass.lenG, hlen]⟩
      have := congrArg List.length (hpass.same.trans h.fst)
      simpa using this
  · rw [upd _ _ _ hi, upd _ _ _ hi, upd _ _ _ hi]; exact h.setup
  · intro t ht1 ht
    rcases Nat.lt_succ_iff_lt_or_eq.1 ht with ht | rfl
    · obtain ⟨ts, cur, mv, a1, a2, a3, a4, a5, a7, a8, a10, a12, a13, a11⟩ := h.iters t ht1 ht
      refine ⟨ts, cur, mv, ?_, ?_, ?_, ?_, fun hh => ⟨?_, ?_⟩, ?_, ?_, ?_, ?_, ?_, ?_⟩
      · rw [e3, List.getElem?_append_left (by omega)]; exact a1
      · rw [e1, List.getElem?_set_ne (by omega)]; exact a2
      · rw [e2, List.getElem?_set_ne (by omega)]; exact a3
      · intro d hd
        rw [e5] at hd
        split at hsig
        · obtain ⟨d', r, f1, _, f2, _⟩ := hsig
          rw [hd] at f2
          cases f2
          rw [List.getElem?_set_ne (by omega)]
          exact a4 _ f1
        · exact a4 _ (hsig.2.1.symm.trans hd)
      · rw [e1, List.getElem?_set_ne (by omega)]; exact (a5 hh).1
      · rw [e2, List.getElem?_set_ne (by omega)]; exact (a5 hh).2
      · rw [e4, List.getElem?_append_left (by omega)]; exact a7
      · rw [upd _ _ _ (by omega)]; exact a8
      · rw [upd _ _ _ (show t - 1 < i by omega)]; exact a10
      · rw [upd _ _ _ (show t - 1 < i by omega)]; exact a12
      · exact a13
      · rw [upd _ _ _ (show t - 1 < i by omega), upd _ _ _ ht, upd _ _ _ ht, upd _ _ _ ht]
        exact a11
    · refine ⟨p.tries, s'.oldSet,
        ⟨c.sim.oldSet, c.sim.cov.R, c.sim.cov.RDR, c.sim.cov.invR, c.sim.world.rng, p.world.rng⟩,
        ?_, ?_, ?_, ?_, fun hh => ⟨?_, ?_⟩, ?_, ?_, ?_, ?_, ?_, ?_⟩
      · rw [e3, List.getElem?_append_right (by omega), show t - 1 - c.sim.trace.length = 0 by omega]
        rfl
      · rw [e1, hth, show s0.chainIndex + t = c.sim.chainIndex + 1 by omega,
          List.getElem?_set_self hlt]
      · rw [e2, hss, show s0.chainIndex + t = c.sim.chainIndex + 1 by omega,
          List.getElem?_set_self hlt']
      · intro d hd
        rw [e5] at hd
        by_cases hu : E.opts.updatesigma = true
        · have hsig' := hsig
          rw [if_pos (show (customEnv U E c.output).opts.updatesigma = true from hu)] at hsig'
          obtain ⟨d', r, f1, f0, f2, _⟩ := hsig'
          rw [hd] at f2
          cases f2
          rw [show s0.chainIndex + t = c.sim.chainIndex + 1 by omega, List.getElem?_set_self f0,
            hst.oldSig, if_pos (show (customEnv U E c.output).opts.updatesigma = true from hu)]
        · have hsig' := hsig
          rw [if_neg (show ¬ (customEnv U E c.output).opts.updatesigma = true from hu)] at hsig'
          rw [hsig'.2.1, h.s2none (by simpa using hu)] at hd
          cases hd
      · rw [e1, List.getElem?_set_ne (by omega),
          show s0.chainIndex + t - 1 = c.sim.chainIndex by omega]
        exact h.cur hh
      · rw [e2, List.getElem?_set_ne (by omega),
          show s0.chainIndex + t - 1 = c.sim.chainIndex by omega]
        exact h.cur' hh
      · rw [e4, List.getElem?_append_right (by omega),
          show t - 1 - c.sim.moveLog.length = 0 by omega]
        rfl
      · rw [upd _ _ _ (by omega)]; exact h.rng
      · rw [hth, hss]
        unfold currentSet
        cases ha : p.accept with
        | false =>
          rw [ha] at hacc
          exact .inl ⟨by simpa using hacc.symm, by simp, by simp⟩
        | true =>
          rw [ha] at hacc
          obtain ⟨⟨q1, ⟨v, q2, q3⟩, _⟩, _⟩ := (propose_ok hst.prop).acc ha
          refine .inr ⟨by simpa using hacc.symm, by simp only [if_true]; exact q1, v,
            fun k hk => (q2 k hk).trans (h.value k hk), ?_⟩
          rw [upd _ _ _ (show t - 1 < t by omega), ← h.output]
          simp only [if_true]
          exact q3
      · have hI := propose_iteration (E := customEnv U E c.output) (fixed := s0.world.value) h.value hst.prop
        rw [upd _ _ _ (show t - 1 < t by omega), ← h.output]
        exact hI
      · rw [hth]
        unfold currentSet
        cases ha : p.accept with
        | false => exact .inl ⟨by simp, ((propose_ok hst.prop).rej ha).1⟩
        | true =>
          obtain ⟨_, _, _, pre, q1, q2, _⟩ := (propose_ok hst.prop).acc ha
          exact .inr ⟨pre, _, q1, rfl, rfl, by simp, q2⟩
      · intro j d k0 hj
        obtain ⟨k, hk⟩ := samplers_at h.fst hj
        obtain ⟨v, k', a, b, b1, b2, b3, b4, b5⟩ := hpass.calls j d k hk
        rw [hacc] at b5
        refine ⟨k, v, k', a, b, ?_, by simpa using b1, ?_, by simpa using b3, by simpa using b4, b5⟩
        · rw [upd _ _ _ (by omega), ← h.snd]; exact getElem?_map_snd hk
        · rw [Function.update_self]; exact getElem?_map_snd b2

end Verif
