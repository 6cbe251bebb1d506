import Verif.Lemmas.Counts

/-! # Continued runs -/

set_option linter.unusedSectionVars false

namespace Verif
variable {F σ : Type} [PyFloat F] {N m : ℕ} {flags : Fin N → Bool}

/-- `_results_to_params` gives every sampled parameter named in `names` the value saved for it. -/
theorem resultsToParams_value {parind : List ℕ} {names : List String} {theta : List F}
    {p q : Fin N → ParamSpec F} (hnd : names.Nodup)
    (h : resultsToParams flags parind names theta p = .ok q) :
    ∀ ii, ii < parind.length → ∀ kk, flags kk = true → names[ii]? = some (p kk).name →
      ∃ j v, parind[ii]? = some j ∧ theta[j]? = some v ∧ (q kk).theta0 = v := by
  unfold resultsToParams at h
  rw [List.range_eq_range'] at h
  have := foldlM_range'_inv (P := fun j q => SameSpecs flags p q ∧
      ∀ ii, ii < j → ∀ kk, flags kk = true → names[ii]? = some (p kk).name →
        ∃ j v, parind[ii]? = some j ∧ theta[j]? = some v ∧ (q kk).theta0 = v)
    parind.length 0 _ q ⟨SameSpecs.refl p, by intro ii hii; omega⟩ ?_ h
  · rw [Nat.zero_add] at this; exact this.2
  · intro j s s' _ _ hs hst
    rw [bind_ok] at hst
    obtain ⟨parii, h1, hst⟩ := hst
    rw [bind_ok] at hst
    obtain ⟨v, h2, hst⟩ := hst
    rw [bind_ok] at hst
    obtain ⟨nm, h3, hst⟩ := hst
    rw [pyGet_ok] at h1 h2 h3
    cases hst
    refine ⟨hs.1.trans (resultToParam_same nm v s), fun ii hii kk hk hn => ?_⟩
    by_cases hij : ii = j
    · subst hij
      rw [h3] at hn
      refine ⟨parii, v, h1, h2, ?_⟩
      unfold resultToParam
      rw [if_pos (by rw [hs.1.name]; exact Option.some.inj hn)]
      simp [hk]
    · obtain ⟨j', v', h4, h5, h6⟩ := hs.2 ii (by omega) kk hk hn
      refine ⟨j', v', h4, h5, ?_⟩
      rw [← h6]
      unfold resultToParam
      have hne : ¬ nm = (s kk).name := by
        rw [hs.1.name]
        intro hc
        rw [← hc, ← h3] at hn
        have hlt := (List.getElem?_eq_some_iff.1 h3).1
        have hlt' : ii < names.length := by omega
        exact hij (List.getElem?_inj hlt' hnd |>.1 hn)
      rw [if_neg hne]

/-- What the object and its results have in common after a run. -/
structure ResInv (o : Obj F flags m) : Prop where
  res : ∀ r, o.results = some r → r.chain = o.chains.chain ∧ r.sschain = o.chains.sschain ∧
    r.names = (sampledIdx flags).map (fun k => (o.specs k).name) ∧
    ∃ last, o.chains.chain[o.chainIndex]? = some last ∧ ∀ i, r.theta (parindOf flags i) = last i

theorem sosAt_unique {style1 : Bool} {f : Bool → Vec F N → Except PyErr (Vec F m)} {v : Vec F N}
    {a b : Vec F m} (ha : SosAt style1 f v a) (hb : SosAt style1 f v b) : a = b := by
  unfold SosAt at ha hb
  split at ha
  · rename_i hs
    rw [if_pos hs] at hb
    rcases ha with ha | ⟨ha, ha'⟩ <;> rcases hb with hb | ⟨hb, hb'⟩
    · rw [ha] at hb; exact Except.ok.inj hb
    · rw [ha] at hb; cases hb
    · rw [hb] at ha; cases ha
    · rw [ha'] at hb'; exact Except.ok.inj hb'
  · rename_i hs
    rw [if_neg hs] at hb
    rw [ha] at hb; exact Except.ok.inj hb

theorem belongsTo_eq {specs : Fin N → ParamSpec F} {row : Vec F (nS flags)} {v : Vec F N}
    (h : BelongsTo flags specs row v) :
    (∀ i, v (parindOf flags i) = row i) ∧ ∀ k, flags k = false → v k = (specs k).theta0 := by
  refine ⟨fun i => ?_, h.2⟩
  have h1 := congrArg (fun l => l[i.val]?) h.1
  have hi : i.val < (sampledIdx flags).length := i.isLt
  simp only [List.getElem?_map, List.getElem?_ofFn] at h1
  rw [List.getElem?_eq_getElem (show i.val < ((List.finRange N).filter flags).length from hi)] at h1
  simp only [Option.map_some] at h1
  rw [dif_pos i.isLt] at h1
  exact Option.some.inj h1

/-- The start of a continued run is the last row of the chain. -/
theorem continue_start {U : UserFuns F N (nS flags) m} {L : Lapack F} {o0 o o1 : Obj F flags m}
    {rng : σ} {I : Init F σ flags m} {s0 : SimState F σ N (nS flags) m}
    (hinv : ObjInv U o0 o) (hres : ResInv o)
    (hnd : ((sampledIdx flags).map fun k => (o0.specs k).name).Nodup)
    (h : setupSimulator U L o rng true = .ok (o1, I, s0)) :
    s0.chain[s0.chainIndex]? = some s0.oldSet.theta ∧
    s0.sschain[s0.chainIndex]? = some s0.oldSet.ss := by
  obtain ⟨hst, hpos, hci, hch, hsc, _, _, _, ⟨res, hr, hrp⟩, ho1⟩ := setup_continue h
  obtain ⟨h1, h2, h3, last, h4, h5⟩ := hres.res res hr
  have hsome : o.results.isSome := by rw [hr]; rfl
  have hl := hinv.len hsome
  have hl' := hinv.len' hsome
  have hnm : res.names = (sampledIdx flags).map fun k => (o0.specs k).name := by
    rw [h3]; apply List.map_congr_left; intro k _; exact hinv.same.name k
  have hth : ∀ i, I.initialSet.theta i = last i := by
    intro i
    rw [hst.init.theta, ← h5]
    have hi : i.val < (sampledIdx flags).length := i.isLt
    obtain ⟨j, v, hj, hv, hq⟩ := resultsToParams_value (by rw [hnm]; exact hnd) hrp i.val
      (by simp) (parindOf flags i) (flags_parindOf i) (by
        rw [h3, List.getElem?_map, List.getElem?_eq_getElem hi]; rfl)
    rw [List.getElem?_map, List.getElem?_eq_getElem hi] at hj
    simp only [Option.map_some, Option.some.injEq] at hj
    subst hj
    rw [List.getElem?_ofFn] at hv
    split at hv
    · cases hv
      exact hq
    · cases hv
  have hth' : I.initialSet.theta = last := funext hth
  obtain ⟨a, b, ha, hb, _, v, hv1, hv2⟩ := hinv.rows hsome o.chainIndex le_rfl
  rw [h4] at ha
  cases ha
  constructor
  · rw [hch, hci, List.getElem?_append_left (by omega), h4, hst.oldSet, hth']
  · rw [hsc, hci, List.getElem?_append_left (by omega), hb, hst.oldSet]
    congr 1
    have hv : v = I.world.value := by
      obtain ⟨e1, e2⟩ := belongsTo_eq hv1
      funext k
      rw [hst.init.value]
      cases hk : flags k with
      | false => rw [e2 k hk, (hinv.same.trans hst.same).fixed k hk]
      | true =>
        obtain ⟨i, rfl⟩ := exists_parindOf hk
        rw [e1, ← hth', hst.init.theta]; rfl
    subst hv
    exact sosAt_unique hv2 hst.init.sos

theorem run_resInv {U : UserFuns F N (nS flags) m} {G : Rng σ F} {L : Lapack F} {fuel : ℕ}
    {o0 o : Obj F flags m} {rng : σ} {up : Bool} {out : RunOut F σ flags m}
    (hinv : ObjInv U o0 o) (hres : ResInv o)
    (hnd : ((sampledIdx flags).map fun k => (o0.specs k).name).Nodup)
    (h : runSimulation U G L fuel o rng up = .ok out) : ResInv out.obj := by
  obtain ⟨o1, I, s0, h1, h2, h3, h4, h5⟩ := runSimulation_ok h
  obtain ⟨_, hth, hnm, _, _, hc, hss, _⟩ := generateResults_ok h3
  have hcur : s0.chain[s0.chainIndex]? = some s0.oldSet.theta ∧
      s0.sschain[s0.chainIndex]? = some s0.oldSet.ss := by
    cases up with
    | false =>
      obtain ⟨hst, hpos, hci, hch, hsc, -⟩ := setup_fresh h1
      have hp : 0 < I.opts.nsimu.toNat := by omega
      constructor
      · rw [hch, hci, hst.oldSet, List.getElem?_set_self (by simpa [zeroRows] using hp)]
      · rw [hsc, hci, hst.oldSet, List.getElem?_set_self (by simpa [zeroRows] using hp)]
    | true => exact continue_start hinv hres hnd h1
  obtain ⟨hn, s1, hP, hfin⟩ := executeSimulator_inv
    (P := fun i s => RowInv I.problem s0 i s) (RowInv.init hcur.1 hcur.2)
    (fun i a b p hi _ hP hp => hP.step hi hp) h2
  refine ⟨fun r hr => ?_⟩
  rw [h5] at hr ⊢
  dsimp only at hr ⊢
  cases hr
  refine ⟨hc, hss, hnm, s1.oldSet.theta, ?_, fun i => ?_⟩
  · rw [hfin]; exact hP.cur
  · rw [hth, hfin, writeAt_sampled (parindOf_injective flags)]

theorem reachable_resInv {U : UserFuns F N (nS flags) m} {o0 o : Obj F flags m}
    (h0 : o0.results = none) (hnd : ((sampledIdx flags).map fun k => (o0.specs k).name).Nodup)
    (h : Reachable U o0 o) : ResInv o := by
  induction h with
  | start => exact ⟨by simp [h0]⟩
  | options a e _ ih => exact ⟨ih.res⟩
  | run G L fuel rng up out hr h ih => exact run_resInv (reachable_objInv h0 hr) ih hnd h

end Verif
