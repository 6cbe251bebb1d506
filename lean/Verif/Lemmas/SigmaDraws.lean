import Verif.Lemmas.Sigma

/-! # What one update of the error variance does, and the variance rows of a run -/

set_option linter.unusedSectionVars false

namespace Verif
variable {F σ : Type} [PyFloat F] {N m : ℕ} {flags : Fin N → Bool}

/-- `x` is the reciprocal of a deviate of the package's gamma generator with shape
`(N0 + N)/2` and scale `2/(N0*S20 + SS)`. -/
def DrawnFrom (G : Rng σ F) (fuel : ℕ) (N0 Nj S20 SS x : F) : Prop :=
  ∃ s g s', gammar G fuel (lit (1/2) * (N0 + Nj)) (lit 2 * (lit 1 / (N0 * S20 + SS))) s
    = .ok (g, s') ∧ x = lit 1 / g

/-- the value `S20` stands for when the current error variances are `prev` -/
def S20Ref.read (r : S20Ref F m) (prev : Vec F m) : Vec F m :=
  match r with
  | .own v => v
  | .aliasSigma2 => prev

theorem s20_eq (M : ErrModel F m) : M.s20 = M.S20.read M.sigma2 := rfl

theorem sigmaStep_ok {G : Rng σ F} {fuel : ℕ} {ss : Vec F m} {M M' : ErrModel F m} {s s' : σ}
    {jj : Fin m} (h : sigmaStep G fuel ss (M, s) jj = .ok (M', s')) :
    M'.N0 = M.N0 ∧ M'.N = M.N ∧ M'.S20 = M.S20 ∧
    (∀ j, j ≠ jj → M'.sigma2 j = M.sigma2 j) ∧
    ∃ Nj, M.N[(jj : ℕ)]? = some Nj ∧
      DrawnFrom G fuel (M.N0 jj) Nj (M.S20.read M.sigma2 jj) (ss jj) (M'.sigma2 jj) := by
  unfold sigmaStep at h
  obtain ⟨Nj, h1, h⟩ := bind_ok.1 h
  obtain ⟨⟨g, s1⟩, h2, h⟩ := bind_ok.1 h
  cases h
  refine ⟨rfl, rfl, rfl, fun j hj => by simp [Function.update_of_ne hj], Nj, ?_, s, g, _, h2, by simp⟩
  unfold pyGet at h1
  split at h1
  · rename_i x hx; cases h1; exact hx
  · cases h1

theorem sigmaFold_ok {G : Rng σ F} {fuel : ℕ} {ss : Vec F m} :
    ∀ {l : List (Fin m)} {M M' : ErrModel F m} {s s' : σ}, l.Nodup →
    l.foldlM (sigmaStep G fuel ss) (M, s) = .ok (M', s') →
    M'.N0 = M.N0 ∧ M'.N = M.N ∧ M'.S20 = M.S20 ∧
    (∀ j, j ∉ l → M'.sigma2 j = M.sigma2 j) ∧
    ∀ j ∈ l, ∃ Nj, M.N[(j : ℕ)]? = some Nj ∧
      DrawnFrom G fuel (M.N0 j) Nj (M.S20.read M.sigma2 j) (ss j) (M'.sigma2 j)
  | [], M, M', s, s', _, h => by cases h; simp
  | jj :: l, M, M', s, s', hl, h => by
    rw [List.foldlM_cons] at h
    obtain ⟨⟨M1, s1⟩, h1, h⟩ := bind_ok.1 h
    obtain ⟨a1, a2, a3, a4, a5⟩ := sigmaStep_ok h1
    obtain ⟨b1, b2, b3, b4, b5⟩ := sigmaFold_ok (List.nodup_cons.1 hl).2 h
    have hnot := (List.nodup_cons.1 hl).1
    refine ⟨b1.trans a1, b2.trans a2, b3.trans a3, fun j hj => ?_, fun j hj => ?_⟩
    · simp only [List.mem_cons, not_or] at hj
      rw [b4 j hj.2, a4 j hj.1]
    · rcases List.mem_cons.1 hj with rfl | hj
      · obtain ⟨Nj, c1, c2⟩ := a5
        exact ⟨Nj, c1, by rw [b4 _ hnot]; exact c2⟩
      · obtain ⟨Nj, c1, c2⟩ := b5 j hj
        have hne : j ≠ jj := fun e => hnot (e ▸ hj)
        refine ⟨Nj, a2 ▸ c1, ?_⟩
        have e : M1.S20.read M1.sigma2 j = M.S20.read M.sigma2 j := by
          rw [a3]; cases M.S20 with
          | own v => rfl
          | aliasSigma2 => exact a4 j hne
        rw [← e, ← a1]; exact c2

theorem updateErrorVariance_ok {G : Rng σ F} {fuel : ℕ} {ss : Vec F m} {M M' : ErrModel F m}
    {s s' : σ} (h : updateErrorVariance G fuel ss M s = .ok (M', s')) :
    M'.N0 = M.N0 ∧ M'.N = M.N ∧ M'.S20 = M.S20 ∧
    ∀ j : Fin m, ∃ Nj, M.N[(j : ℕ)]? = some Nj ∧
      DrawnFrom G fuel (M.N0 j) Nj (M.S20.read M.sigma2 j) (ss j) (M'.sigma2 j) := by
  obtain ⟨a, b, c, _, d⟩ := sigmaFold_ok (List.nodup_finRange m) h
  exact ⟨a, b, c, fun j => d j (List.mem_finRange j)⟩

/-- Invariant of the loop: which draw each row of the error-variance chain is. -/
structure SigmaInv {n : ℕ} (E : Env F σ N n m) (M0 : ErrModel F m) (i : ℕ) (s : SimState F σ N n m) :
    Prop where
  idx : s.chainIndex + 1 = i
  N0 : s.errModel.N0 = M0.N0
  N : s.errModel.N = M0.N
  S20 : s.errModel.S20 = M0.S20
  rows : ∃ c, s.s2chain = some c ∧ c.length = s.sschain.length ∧
    c[0]? = some M0.sigma2 ∧
    c[s.chainIndex]? = some s.errModel.sigma2 ∧
    ∀ k, k + 1 < i → ∃ prev row ss, c[k]? = some prev ∧ c[k + 1]? = some row ∧
      s.sschain[k + 1]? = some ss ∧
      ∀ j : Fin m, ∃ Nj, M0.N[(j : ℕ)]? = some Nj ∧
        DrawnFrom E.rng E.fuel (M0.N0 j) Nj (M0.S20.read prev j) (ss j) (row j)

theorem SigmaInv.step {n : ℕ} {E : Env F σ N n m} {M0 : ErrModel F m} {i : ℕ}
    {s s' : SimState F σ N n m} {p : Proposal F σ N n m} (hu : E.opts.updatesigma = true)
    (h : SigmaInv E M0 i s) (hi : 1 ≤ i) (hp : StepSpec E i s s' p) : SigmaInv E M0 (i + 1) s' := by
  have he := hp.errModel
  rw [if_pos hu] at he
  obtain ⟨c, r, e1, e2, e3, e4, _⟩ := he
  obtain ⟨a1, a2, a3, a4⟩ := updateErrorVariance_ok e4
  obtain ⟨c', f1, f2, f3, f4, f5⟩ := h.rows
  rw [e1] at f1; cases f1
  have hidx := h.idx
  refine ⟨by rw [hp.idx, h.idx], a1.trans h.N0, a2.trans h.N, a3.trans h.S20, _, e3, ?_, ?_, ?_, ?_⟩
  · rw [hp.sschain]; simpa using f2
  · rw [List.getElem?_set_ne (by omega)]; exact f3
  · rw [hp.idx, List.getElem?_set_self e2]
  · intro k hk
    rw [hp.sschain]
    by_cases hk' : k + 1 < i
    · obtain ⟨prev, row, ss, g1, g2, g3, g4⟩ := f5 k hk'
      refine ⟨prev, row, ss, ?_, ?_, ?_, g4⟩ <;> rw [List.getElem?_set_ne (by omega)] <;> assumption
    · have hk2 : k = s.chainIndex := by omega
      subst hk2
      refine ⟨s.errModel.sigma2, _, _, ?_, List.getElem?_set_self e2, List.getElem?_set_self hp.lt', ?_⟩
      · rw [List.getElem?_set_ne (by omega)]; exact f4
      · intro j
        have := a4 j
        rw [h.N0, h.N, h.S20] at this
        exact this

/-- The error-variance chain of a run from scratch. -/
theorem run_sigma {U : UserFuns F N (nS flags) m} {o : Obj F flags m} {G : Rng σ F} {L : Lapack F}
    {fuel : ℕ} {rng : σ} {out : RunOut F σ flags m}
    (h : runSimulation U G L fuel o rng false = .ok out)
    (hu : o.ms.N0.isSome ∨ o.opts.updatesigma = true) :
    ∃ c, out.results.s2chain = some c ∧ c.length = out.results.sschain.length ∧
      (c.length : ℤ) = o.opts.nsimu ∧
      c[0]? = some out.init.errModel.sigma2 ∧
      ∀ k, k + 1 < c.length → ∃ prev row ss, c[k]? = some prev ∧ c[k + 1]? = some row ∧
        out.results.sschain[k + 1]? = some ss ∧
        ∀ j : Fin m, ∃ Nj, out.init.errModel.N[(j : ℕ)]? = some Nj ∧
          DrawnFrom G fuel (out.init.errModel.N0 j) Nj (out.init.errModel.S20.read prev j)
            (ss j) (row j) := by
  obtain ⟨o1, I, s0, h1, h2, h3, h4, h5⟩ := runSimulation_ok h
  obtain ⟨hst, hn, hidx, _, hss, hs2, _⟩ := setup_fresh h1
  have hopt : I.opts.updatesigma = true := by
    have : I.opts.updatesigma = if o.ms.N0.isSome then true else o.opts.updatesigma := by
      rw [hst.init.opts, hst.opts, hst.ms]; rfl
    rw [this]; rcases hu with h | h <;> simp [h]
  have hns : I.opts.nsimu = o.opts.nsimu := by
    rw [hst.init.opts, hst.opts]; rfl
  rw [if_pos hopt] at hs2
  have hpos : 0 < I.opts.nsimu.toNat := by omega
  obtain ⟨hn', s1, hP, hfin⟩ := executeSimulator_inv
    (E := ⟨I.problem, G, L, runOpts I.opts o1.extra, fuel⟩)
    (P := fun i a => SigmaInv ⟨I.problem, G, L, runOpts I.opts o1.extra, fuel⟩ I.errModel i a
      ∧ a.sschain.length = I.opts.nsimu.toNat)
    ⟨⟨by change s0.chainIndex + 1 = 1; omega, by rw [← hst.errModel]; rfl,
      by rw [← hst.errModel]; rfl, by rw [← hst.errModel]; rfl, _, hs2, by
        change _ = s0.sschain.length
        rw [hss]; simp [zeroRows], by simp [zeroRows, hpos], by
        change _[s0.chainIndex]? = some s0.errModel.sigma2
        rw [hidx, hst.errModel]; simp [zeroRows, hpos], fun k hk => by omega⟩, by
        change s0.sschain.length = _
        rw [hss]; simp [zeroRows]⟩
    (fun i a b p hi _ hP hp => ⟨hP.1.step hopt hi hp, by rw [hp.sschain]; simpa using hP.2⟩) h2
  obtain ⟨hP, hlen⟩ := hP
  obtain ⟨c, f1, f2, f3, f4, f5⟩ := hP.rows
  obtain ⟨_, _, _, _, _, _, r1, r2, _⟩ := generateResults_ok h3
  have e1 : out.final.sschain = s1.sschain := by rw [hfin]
  have e2 : out.final.s2chain = s1.s2chain := by rw [hfin]
  rw [← h4] at f3 f5
  rw [r1, r2, e1, e2]
  refine ⟨c, f1, f2, by omega, f3, fun k hk => f5 k ?_⟩
  change k + 1 < out.init.opts.nsimu.toNat
  rw [h4]
  omega

end Verif
