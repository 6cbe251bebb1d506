import Verif.Lemmas.History

/-! # Counting moves -/

set_option linter.unusedSectionVars false

namespace Verif
variable {F σ : Type} [PyFloat F] {N m : ℕ} {flags : Fin N → Bool}

theorem rejection_counts {U : UserFuns F N (nS flags) m} {o : Obj F flags m}
    {G : Rng σ F} {L : Lapack F} {fuel : ℕ} {rng : σ} {up : Bool}
    {out : RunOut F σ flags m} (h : runSimulation U G L fuel o rng up = .ok out) :
    (out.final.trace.length : ℤ) + 1 = o.opts.nsimu ∧
    out.results.rejected.total = out.final.trace.countP Rejection ∧
    ((out.results.rejected.total + out.final.trace.countP (fun ts => !Rejection ts) : ℕ) : ℤ) + 1
      = o.opts.nsimu ∧
    out.results.rejected.outside ≤
      out.final.trace.countP (fun ts => Rejection ts && ts.any fun t => t.outside) ∧
    out.results.rejected.outside ≤ out.results.rejected.total ∧
    out.results.rejected.inInterval + out.final.adaptedAt.getLast?.getD 0
      ≤ out.final.trace.length := by
  obtain ⟨o1, I, s0, h1, h2, h3, h4, h5⟩ := runSimulation_ok h
  obtain ⟨_, _, _, hrej, _⟩ := generateResults_ok h3
  have hst : StartSpec U o o1 rng I s0 ∧ 0 < I.opts.nsimu := by
    cases up with
    | false => exact ⟨(setup_fresh h1).1, (setup_fresh h1).2.1⟩
    | true => exact ⟨(setup_continue h1).1, (setup_continue h1).2.1⟩
  obtain ⟨hst, hpos⟩ := hst
  obtain ⟨hn, s1, ⟨hP, hS⟩, hfin⟩ := executeSimulator_inv
    (P := fun i s => CountInv s0 i s ∧ SinceInv s0 i s)
    ⟨⟨⟨[], by simp [loopStart], rfl, rfl, le_rfl⟩, le_rfl⟩, SinceInv.init hst.adaptedAt⟩
    (fun i a b p hi _ hP hp => ⟨hP.1.step hp, hP.2.step hp⟩) h2
  obtain ⟨tr, ht1, ht2, ht3, ht4⟩ := hP.trace
  rw [hst.trace, List.nil_append] at ht1
  have hN : (runOpts I.opts o1.extra).nsimu = I.opts.nsimu.toNat := rfl
  have hopt : o.opts.nsimu = I.opts.nsimu := by rw [hst.init.opts, ← hst.opts]; rfl
  have e1 : out.final.trace = tr := by rw [hfin]; exact ht1
  have e2 : out.results.rejected = s1.rejected := by rw [hrej, hfin]
  have e3 : out.final.adaptedAt = s1.adaptedAt := by rw [hfin]
  dsimp only at ht2
  rw [hN] at ht2
  have hcount : ∀ l : List (List (Try F (nS flags))),
      l.countP Rejection + l.countP (fun ts => !Rejection ts) = l.length := by
    intro l
    have := List.length_eq_countP_add_countP (l := l) Rejection
    simp only [Bool.decide_eq_false, decide_not] at this
    rw [this]
    congr 2
    funext ts
    cases Rejection ts <;> rfl
  rw [e1, e2, e3, hopt]
  have ht3' : s1.rejected.total = tr.countP Rejection := ht3
  refine ⟨by omega, ht3', ?_, ht4, ?_, ?_⟩
  · rw [ht3', hcount]; omega
  · rw [ht3']
    refine ht4.trans (List.countP_mono_left ?_)
    intro ts _ hts
    simp only [Bool.and_eq_true] at hts
    exact hts.1
  · have h6 := hP.inInt
    have h7 := hS.since
    dsimp only at h7
    rw [hN] at h7
    omega

theorem acceptedAtStage_eq {n : ℕ} (k : ℕ) :
    (acceptedAtStage k : List (Try F n) → Bool) = AcceptedAtStage k := by
  funext ts
  unfold acceptedAtStage AcceptedAtStage Rejection
  congr 1
  simp [List.not_all_eq_any_not]

theorem count_by_stage {n : ℕ} (K : ℕ) : ∀ l : List (List (Try F n)),
    (∀ ts ∈ l, ts ≠ [] ∧ ts.length ≤ K) →
    ((List.range K).map fun k => l.countP (AcceptedAtStage k)).sum
      = l.countP (fun ts => !Rejection ts)
  | [], _ => by simp
  | ts :: l, h => by
      have ih := count_by_stage K l (fun t ht => h t (by simp [ht]))
      have hts := h ts (by simp)
      have : ∀ k, (ts :: l).countP (AcceptedAtStage k)
          = l.countP (AcceptedAtStage k) + if ts.length = k + 1 ∧ Rejection ts = false then 1 else 0 := by
        intro k
        rw [List.countP_cons]
        congr 1
        unfold AcceptedAtStage
        cases Rejection ts <;> simp
      simp only [this]
      have hsum : ∀ (f g : ℕ → ℕ) (l : List ℕ),
          (l.map fun k => f k + g k).sum = (l.map f).sum + (l.map g).sum := by
        intro f g l
        induction l with
        | nil => rfl
        | cons a l ih => simp [ih]; omega
      rw [hsum, ih, List.countP_cons]
      congr 1
      cases hr : Rejection ts with
      | true => simp
      | false =>
        have hpos : 0 < ts.length := List.length_pos_of_ne_nil hts.1
        have hone : ∀ (a : ℕ) (K : ℕ), a < K →
            ((List.range K).map fun k => if a = k then 1 else 0).sum = 1 := by
          intro a K
          induction K with
          | zero => omega
          | succ K ih =>
            intro ha
            rw [List.range_succ, List.map_append, List.sum_append]
            by_cases haK : a = K
            · have : ((List.range K).map fun k => if a = k then 1 else 0).sum = 0 := by
                rw [List.sum_eq_zero]
                intro x hx
                obtain ⟨k, hk, rfl⟩ := List.mem_map.1 hx
                rw [if_neg (by have := List.mem_range.1 hk; omega)]
              simpa [haK] using this
            · simp [ih (by omega), haK]
        have := hone (ts.length - 1) K (by omega)
        simp only [and_true, Bool.not_false, if_true]
        refine Eq.trans ?_ this
        congr 1
        apply List.map_congr_left
        intro k _
        by_cases hk : ts.length = k + 1
        · rw [if_pos hk, if_pos (by omega)]
        · rw [if_neg hk, if_neg (by omega)]

/-- What the reported counts are, for C05. -/
theorem stage_counts {U : UserFuns F N (nS flags) m} {o : Obj F flags m}
    {G : Rng σ F} {L : Lapack F} {fuel : ℕ} {rng : σ} {up : Bool}
    {out : RunOut F σ flags m} (h : runSimulation U G L fuel o rng up = .ok out)
    (hntry : 1 < o.opts.ntry) :
    ∃ iacce cnt, out.results.dram = some (iacce, cnt) ∧ (iacce.length : ℤ) = o.opts.ntry ∧
      (∀ k, 1 ≤ k → k < iacce.length →
        iacce[k]? = some ((out.final.trace.countP (AcceptedAtStage k) : ℕ) : ℤ)) ∧
      iacce[0]? = some (((out.final.trace.countP (AcceptedAtStage 0) : ℕ) : ℤ) + 1) ∧
      iacce.sum + (out.results.rejected.total : ℤ) = (out.final.trace.length : ℤ) + 1 := by
  obtain ⟨o1, I, s0, h1, h2, h3, h4, h5⟩ := runSimulation_ok h
  obtain ⟨hdram, _, _, hrej, _⟩ := generateResults_ok h3
  have hst : StartSpec U o o1 rng I s0 := by
    cases up with
    | false => exact (setup_fresh h1).1
    | true => exact (setup_continue h1).1
  obtain ⟨c1, c2, c3, -⟩ := rejection_counts h
  obtain ⟨hn, s1, hP, hfin⟩ := executeSimulator_inv
    (P := fun i s => DrInv (runOpts I.opts o1.extra).ntry s0 i s)
    ⟨rfl, [], by simp [loopStart], rfl, by simp, by
      intro k hk hk'; exact ⟨s0.dr.iacce[k], by simp [hk'], by simp [loopStart, hk']⟩⟩
    (fun i a b p hi _ hP hp => hP.step hp) h2
  have hopt : o.opts.ntry = I.opts.ntry := by rw [hst.init.opts, ← hst.opts]; rfl
  have hopt' : o.opts.nsimu = I.opts.nsimu := by rw [hst.init.opts, ← hst.opts]; rfl
  obtain ⟨hlen, tr, ht1, ht2, ht3, ht4⟩ := hP
  rw [hst.trace, List.nil_append] at ht1
  have e1 : out.final.trace = tr := by rw [hfin]; exact ht1
  have e4 : out.final.dr = s1.dr := by rw [hfin]
  have hntry' : (runOpts I.opts o1.extra).ntry = I.opts.ntry.toNat := rfl
  rw [hst.dr] at hlen ht4
  simp only [List.length_replicate] at hlen ht4
  unfold dramResults at hdram
  rw [if_pos (by omega)] at hdram
  have hd : ∃ d, addDram I.opts.nsimu.toNat out.final.rejected.total out.final.dr = .ok d ∧
      out.results.dram = some d := by
    split at hdram
    · cases hdram
    · rw [bind_ok] at hdram
      obtain ⟨d, hd1, hd2⟩ := hdram
      exact ⟨d, hd1, (Except.ok.inj hd2).symm⟩
  obtain ⟨d, hd1, hd2⟩ := hd
  unfold addDram at hd1
  rw [e4] at hd1
  rw [← hrej] at hd1
  split at hd1
  · cases hd1
  · rename_i c0 rest hia
    rw [hia] at hlen ht4
    simp only [List.length_cons] at hlen
    have hrest : rest = (List.range' 1 (I.opts.ntry.toNat - 1)).map
        fun k => tr.countP (AcceptedAtStage k) := by
      apply List.ext_getElem?
      intro k
      by_cases hk : k < rest.length
      · obtain ⟨c, hc1, hc2⟩ := ht4 (k + 1) (by omega) (by omega)
        rw [List.getElem?_replicate, if_pos (by omega)] at hc1
        cases hc1
        rw [List.getElem?_cons_succ] at hc2
        rw [hc2, List.getElem?_map, List.getElem?_range' (by omega)]
        simp [acceptedAtStage_eq, Nat.add_comm]
      · rw [List.getElem?_eq_none (by omega), List.getElem?_eq_none (by simp; omega)]
    have hstage := count_by_stage (I.opts.ntry.toNat) tr (fun ts hts =>
      ⟨(ht3 ts hts).2.1, by have := (ht3 ts hts).1; omega⟩)
    obtain ⟨K, hK⟩ : ∃ K, I.opts.ntry.toNat = K + 1 := ⟨I.opts.ntry.toNat - 1, by omega⟩
    rw [hK, Nat.add_sub_cancel] at hrest
    rw [hK, List.range_succ_eq_map, List.map_cons, List.map_map, List.sum_cons] at hstage
    have hrs : rest.sum = ((List.range K).map
        ((fun k => tr.countP (AcceptedAtStage k)) ∘ Nat.succ)).sum := by
      rw [hrest, List.range'_eq_map_range, List.map_map]
      congr 1
      apply List.map_congr_left
      intro k _
      simp [Nat.add_comm]
    have hcast : (rest.map fun (k : ℕ) => (k : ℤ)).sum = (rest.sum : ℤ) := by
      induction rest with
      | nil => rfl
      | cons a l ih => simp
    rw [← hrs] at hstage
    rw [e1] at c1 c2 c3 ⊢
    rw [← hstage] at c3
    cases hd1
    refine ⟨_, _, hd2, ?_, ?_, ?_, ?_⟩
    · simp only [List.length_cons, List.length_map]; omega
    · intro k hk hk'
      simp only [List.length_cons, List.length_map] at hk'
      obtain ⟨j, rfl⟩ : ∃ j, k = j + 1 := ⟨k - 1, by omega⟩
      rw [List.getElem?_cons_succ, hrest, List.getElem?_map, List.getElem?_map,
        List.getElem?_range' (by omega)]
      simp [Nat.add_comm]
    · rw [List.getElem?_cons_zero, hcast]
      congr 1
      omega
    · rw [List.sum_cons, hcast]
      have c4 := c1.trans hopt'
      omega

end Verif
