import Verif.Lemmas.CovRun
import Verif.Lemmas.SigmaDraws

/-! # Which errors a running simulation can raise -/

set_option linter.unusedSectionVars false

namespace Verif
variable {F σ : Type} [PyFloat F] {N n m : ℕ}

/-- the computation returns, or raises an error of the kind `A` -/
def Safe {α : Type} (A : PyErr → Prop) (x : Except PyErr α) : Prop := ∀ e, x = .error e → A e

variable {A : PyErr → Prop}

theorem Safe.ok {α : Type} (a : α) : Safe A (.ok a : Except PyErr α) := by
  intro e h; cases h

theorem Safe.error {α : Type} {e : PyErr} (h : A e) : Safe A (.error e : Except PyErr α) := by
  intro e' h'; cases h'; exact h

theorem Safe.bind {α β : Type} {x : Except PyErr α} {f : α → Except PyErr β} (hx : Safe A x)
    (hf : ∀ a, x = .ok a → Safe A (f a)) : Safe A (x >>= f) := by
  cases x with
  | error e => exact fun e' h => hx e' (by cases h; rfl)
  | ok a => exact hf a rfl

theorem Safe.map {α β : Type} {x : Except PyErr α} {f : α → β} (hx : Safe A x) :
    Safe A (x >>= fun a => .ok (f a)) := hx.bind fun _ _ => .ok _

theorem safe_pyGet {α : Type} {l : List α} {i : ℕ} (h : i < l.length) : Safe A (pyGet l i) := by
  unfold pyGet
  rw [List.getElem?_eq_getElem h]
  exact .ok _

theorem safe_pySet {α : Type} {l : List α} {i : ℕ} (h : i < l.length) (x : α) :
    Safe A (pySet l i x) := by
  unfold pySet
  rw [if_pos h]
  exact .ok _

theorem safe_orRaise {α : Type} {o : Option α} (h : o.isSome) (e : PyErr) :
    Safe A (orRaise o e) := by
  obtain ⟨a, rfl⟩ := Option.isSome_iff_exists.1 h
  exact .ok _

theorem safe_orRaise' {α : Type} (o : Option α) {e : PyErr} (h : A e) : Safe A (orRaise o e) := by
  cases o with
  | none => exact .error h
  | some a => exact .ok _

theorem foldlM_safe {S : Type} {f : S → ℕ → Except PyErr S} {P : ℕ → S → Prop} :
    ∀ (k a : ℕ) (s : S), P a s →
    (∀ i s, a ≤ i → i < a + k → P i s → Safe A (f s i)) →
    (∀ i s s', a ≤ i → i < a + k → P i s → f s i = .ok s' → P (i + 1) s') →
    Safe A ((List.range' a k).foldlM f s)
  | 0, a, s, _, _, _ => .ok _
  | k + 1, a, s, h0, hs, hp => by
      rw [List.range'_succ, List.foldlM_cons]
      exact (hs a s le_rfl (by omega) h0).bind fun s1 h1 =>
        foldlM_safe k (a + 1) s1 (hp a s s1 le_rfl (by omega) h0 h1)
          (fun i s hi hi' => hs i s (by omega) (by omega))
          (fun i s s' hi hi' => hp i s s' (by omega) (by omega))

theorem foldlM_list_safe {S α : Type} {f : S → α → Except PyErr S} {P : S → Prop} :
    ∀ (l : List α) (s : S), P s → (∀ a ∈ l, ∀ s, P s → Safe A (f s a)) →
    (∀ a ∈ l, ∀ s s', P s → f s a = .ok s' → P s') → Safe A (l.foldlM f s)
  | [], s, _, _, _ => .ok _
  | a :: l, s, h0, hs, hp => by
      rw [List.foldlM_cons]
      exact (hs a (by simp) s h0).bind fun s1 h1 =>
        foldlM_list_safe l s1 (hp a (by simp) s s1 h0 h1) (fun b hb => hs b (by simp [hb]))
          (fun b hb => hp b (by simp [hb]))

/-! ### The samplers -/

/-- the user's sum-of-squares function returns a value at every point -/
def Computes (style1 : Bool) (f : Bool → Vec F N → Except PyErr (Vec F m)) : Prop :=
  ∀ v, if style1 then (∃ ss, f true v = .ok ss) ∨
      f true v = .error .typeError ∧ ∃ ss, f false v = .ok ss
    else ∃ ss, f false v = .ok ss

theorem safe_evaluateSos {P : Problem F N n m} (hP : Computes P.style1 P.sosFun) (theta : Vec F n)
    (w : World F σ N) : Safe A (evaluateSos P theta w) := by
  have h := hP (writeAt P.parind theta w.value)
  unfold evaluateSos
  dsimp only
  split
  · rename_i hs
    rw [if_pos hs] at h
    rcases h with ⟨ss, h⟩ | ⟨h, ss, h'⟩
    · rw [h]; exact .ok _
    · rw [h, h']; exact .ok _
  · rename_i hs
    rw [if_neg hs] at h
    obtain ⟨ss, h⟩ := h
    rw [h]; exact .ok _

theorem safe_metropolis {P : Problem F N n m} (hP : Computes P.style1 P.sosFun) (G : Rng σ F)
    (old : ParamSet F n m) (R : Mat F n) (w : World F σ N) :
    Safe A (runMetropolisStep P G old R w) := by
  unfold runMetropolisStep
  dsimp only
  split
  · exact .ok _
  · exact (safe_evaluateSos hP _ _).bind fun _ _ => .ok _

theorem safe_nthStage {iq : ℕ} {path : List (ParamSet F n m)} {invR : List (Mat F n)}
    (h1 : iq < path.length - 1) (h2 : path.length ≤ invR.length + 2) :
    Safe A (nthStageLogProposalRatio iq path invR) := by
  unfold nthStageLogProposalRatio
  dsimp only
  split
  · exact .ok _
  · exact (safe_pyGet (by omega)).bind fun _ _ => (safe_pyGet (by omega)).bind fun _ _ =>
      (safe_pyGet (by omega)).bind fun _ _ => (safe_pyGet (by omega)).bind fun _ _ =>
      (safe_pyGet (by omega)).bind fun _ _ => .ok _

theorem safe_alphaFinal {path : List (ParamSet F n m)} {invR : List (Mat F n)}
    (h1 : 2 ≤ path.length) (h2 : path.length ≤ invR.length + 2) (a1 a2 : F) :
    Safe A (alphaFinal path invR a1 a2) := by
  unfold alphaFinal
  refine (safe_pyGet (by omega)).bind fun _ _ => (safe_pyGet (by omega)).bind fun _ _ =>
    (foldlM_list_safe (P := fun _ => True) _ _ trivial (fun a ha s _ => ?_)
      (fun _ _ _ _ _ _ => trivial)).bind fun _ _ => .ok _
  exact (safe_nthStage (List.mem_range.1 ha) h2).bind fun _ _ => .ok _

theorem safe_alphaLoop {rec : List (ParamSet F n m) → ℕ → Except PyErr (F × ℕ)}
    {path : List (ParamSet F n m)} (ks : List ℕ)
    (h1 : ∀ k ∈ ks, ∀ c, Safe A (rec (path.take (k + 2)) c))
    (h2 : ∀ k ∈ ks, ∀ c, Safe A (rec (path.reverse.take (k + 2)) c)) (a1 a2 : F) (cnt : ℕ) :
    Safe A (alphaLoop rec path ks a1 a2 cnt) := by
  induction ks generalizing a1 a2 cnt with
  | nil => exact .ok _
  | cons k ks ih =>
    refine (h1 k (by simp) _).bind fun t1 _ => (h2 k (by simp) _).bind fun t2 _ => ?_
    dsimp only
    split
    · exact .ok _
    · exact ih (fun k hk => h1 k (by simp [hk])) (fun k hk => h2 k (by simp [hk])) _ _ _

theorem safe_alphaDepth (invR : List (Mat F n)) : ∀ (d : ℕ) (path : List (ParamSet F n m))
    (_ : 2 ≤ path.length) (_ : path.length ≤ invR.length + 2) (_ : path.length ≤ d + 1) (cnt : ℕ),
    Safe A (alphaDepth invR d path cnt)
  | 0, path, h1, _, h3, cnt => by omega
  | d + 1, path, h1, h2, h3, cnt => by
    refine (safe_alphaLoop _ (fun k hk c => ?_) (fun k hk c => ?_) _ _ _).bind fun r _ => ?_
    · have := List.mem_range.1 hk
      refine safe_alphaDepth invR d _ ?_ ?_ ?_ c <;> rw [List.length_take] <;> omega
    · have := List.mem_range.1 hk
      refine safe_alphaDepth invR d _ ?_ ?_ ?_ c <;> rw [List.length_take, List.length_reverse] <;> omega
    · refine Safe.map ?_
      unfold alphaTail
      split
      · exact .ok _
      · exact safe_alphaFinal h1 h2 _ _

theorem safe_alphafun {path : List (ParamSet F n m)} {invR : List (Mat F n)}
    (h1 : 2 ≤ path.length) (h2 : path.length ≤ invR.length + 2) (cnt : ℕ) :
    Safe A (alphafun path invR cnt) := safe_alphaDepth invR _ _ h1 h2 (by omega) cnt

theorem safe_drLoop {P : Problem F N n m} (hP : Computes P.style1 P.sosFun) (G : Rng σ F)
    (old : ParamSet F n m) (sigma2 : Vec F m) {l il : List (Mat F n)} {ntry : ℕ}
    (hl : ntry ≤ l.length) (hil : ntry ≤ il.length) :
    ∀ (left itry : ℕ) (path : List (ParamSet F n m)) (o : DrOut F σ N n m), itry + left = ntry →
      path.length = itry + 1 → 1 ≤ itry → o.count.iacce.length = ntry →
      Safe A (drLoop P G old sigma2 (.some l) (some il) left itry path o)
  | 0, _, _, _, _, _, _, _ => .ok _
  | left + 1, itry, path, o, h1, h2, h3, h4 => by
    unfold drLoop
    refine (safe_pyGet (by omega)).bind fun R _ => ?_
    dsimp only
    split
    · exact safe_drLoop hP G old sigma2 hl hil left _ _ _ (by omega) (by simp [h2]) (by omega) h4
    · refine (safe_evaluateSos hP _ _).bind fun e _ => (safe_orRaise rfl _).bind fun inv hinv => ?_
      cases hinv
      refine (safe_alphafun (by simp [h2]) (by simp [h2]; omega) _).bind fun ac _ =>
        (safe_pyGet (by omega)).bind fun _ _ => (safe_pySet (by omega) _).bind fun ia hia => ?_
      split
      · exact .ok _
      · refine safe_drLoop hP G old sigma2 hl hil left _ _ _ (by omega) (by simp [h2]) (by omega) ?_
        dsimp only
        rw [(pySet_ok.1 hia).2, List.length_set, h4]

theorem drLoop_outSet {P : Problem F N n m} {G : Rng σ F} {old : ParamSet F n m} {sigma2 : Vec F m}
    {RDR : Slot (List (Mat F n))} {invR : Option (List (Mat F n))} :
    ∀ {left itry : ℕ} {path : List (ParamSet F n m)} {o o' : DrOut F σ N n m},
      drLoop P G old sigma2 RDR invR left itry path o = .ok o' →
      (0 < left ∨ o.outSet.isSome) → o'.outSet.isSome ∧ o'.count.iacce.length = o.count.iacce.length
  | 0, _, _, _, _, h, h' => by
    cases h
    exact ⟨by simpa using h', rfl⟩
  | left + 1, itry, path, o, o', h, _ => by
    unfold drLoop at h
    obtain ⟨R, _, h⟩ := bind_ok.1 h
    dsimp only at h
    split at h
    · have := drLoop_outSet h
      exact this (.inr rfl)
    · obtain ⟨e, _, h⟩ := bind_ok.1 h
      obtain ⟨inv, _, h⟩ := bind_ok.1 h
      obtain ⟨ac, _, h⟩ := bind_ok.1 h
      obtain ⟨x, _, h⟩ := bind_ok.1 h
      obtain ⟨ia, hia, h⟩ := bind_ok.1 h
      have hlen : ia.length = o.count.iacce.length := by
        rw [(pySet_ok.1 hia).2, List.length_set]
      split at h
      · cases h; exact ⟨rfl, hlen⟩
      · have := drLoop_outSet h
        obtain ⟨q1, q2⟩ := this (.inr rfl)
        exact ⟨q1, q2.trans hlen⟩

theorem safe_runDelayedRejection {P : Problem F N n m} (hP : Computes P.style1 P.sosFun)
    (G : Rng σ F) (old new : ParamSet F n m) {l il : List (Mat F n)} {ntry : ℕ} (h1 : 1 < ntry)
    (hl : ntry ≤ l.length) (hil : ntry ≤ il.length) (w : World F σ N) {count : DrCount}
    (hc : count.iacce.length = ntry) :
    Safe A (runDelayedRejection P G old new (.some l) ntry (some il) w count) := by
  unfold runDelayedRejection
  refine (safe_drLoop hP G old _ hl hil _ _ _ _ (by omega) rfl le_rfl hc).bind fun o ho => ?_
  obtain ⟨q, _⟩ := drLoop_outSet ho (.inl (by omega))
  obtain ⟨x, hx⟩ := Option.isSome_iff_exists.1 q
  rw [hx]
  exact .ok _

theorem runDelayedRejection_iacce {P : Problem F N n m} {G : Rng σ F} {old new : ParamSet F n m}
    {RDR : Slot (List (Mat F n))} {invR : Option (List (Mat F n))} {ntry : ℕ} (h1 : 1 < ntry)
    {w : World F σ N} {count : DrCount} {r}
    (h : runDelayedRejection P G old new RDR ntry invR w count = .ok r) :
    r.2.1.iacce.length = count.iacce.length := by
  unfold runDelayedRejection at h
  obtain ⟨o, ho, h⟩ := bind_ok.1 h
  obtain ⟨_, q⟩ := drLoop_outSet ho (.inl (by omega))
  split at h
  · cases h; exact q
  · cases h

/-! ### Adaptation -/

/-- the factors for delayed rejection are there -/
def HasFactors (ntry : ℕ) (c : CovState F n) : Prop :=
  ∃ l il, c.RDR = .some l ∧ c.invR = some il ∧ ntry ≤ l.length ∧ ntry ≤ il.length

theorem setupW_one_length (k : ℕ) : (setupW (some [lit 1] : Option (List F)) k).length = k := by
  simp [setupW]

theorem safe_updateCov {x : List (Vec F n)} {c : CovState F n}
    (hc : c.covchain.isSome → c.meanchain.isSome ∧ c.wsum.isSome) :
    Safe A (updateCovarianceMeanSum x (some [lit 1]) c.covchain c.meanchain c.wsum) := by
  unfold updateCovarianceMeanSum
  have hl := setupW_one_length (F := F) x.length
  split
  · exact .ok _
  · dsimp only
    split
    · rw [if_pos hl]; exact .ok _
    · rw [if_pos hl.ge]; exact .ok _
    · rename_i h1 h2
      exfalso
      have := hc (by rw [h1]; rfl)
      obtain ⟨a, ha⟩ := Option.isSome_iff_exists.1 this.1
      obtain ⟨b, hb⟩ := Option.isSome_iff_exists.1 this.2
      exact h2 _ _ ha hb

theorem updateCov_isSome {x : List (Vec F n)} (hx : x ≠ []) (hn : 0 < n) {w : Option (List F)}
    {a : Option (Mat F n)} {b : Option (Vec F n)} {d : Option F} {r}
    (h : updateCovarianceMeanSum x w a b d = .ok r) :
    r.1.isSome ∧ r.2.1.isSome ∧ r.2.2.isSome := by
  unfold updateCovarianceMeanSum at h
  rw [if_neg (by rw [List.length_eq_zero_iff]; rintro (h | h) <;> [exact hx h; omega])] at h
  dsimp only at h
  split at h
  · split at h <;> cases h; exact ⟨rfl, rfl, rfl⟩
  · split at h <;> cases h; exact ⟨rfl, rfl, rfl⟩
  · cases h

theorem safe_drFactorLoop {drscale : List F} (h : drscale ≠ []) :
    ∀ (k ii : ℕ) (R iR : Mat F n), Safe A (drFactorLoop drscale k ii R iR)
  | 0, _, _, _ => .ok _
  | k + 1, ii, R, iR => by
    have := List.length_pos_iff.2 h
    refine (show Safe A (drscaleAt drscale ii) from safe_pyGet (by omega)).bind fun s _ => ?_
    exact (safe_drFactorLoop h k (ii + 1) _ _).bind fun _ _ => .ok _

theorem drFactorLoop_length {drscale : List F} : ∀ {k ii : ℕ} {R iR : Mat F n} {r},
    drFactorLoop drscale k ii R iR = .ok r → r.1.length = k ∧ r.2.length = k
  | 0, _, _, _, _, h => by cases h; exact ⟨rfl, rfl⟩
  | k + 1, ii, R, iR, r, h => by
    unfold drFactorLoop at h
    obtain ⟨s, _, h⟩ := bind_ok.1 h
    obtain ⟨⟨l, il⟩, h1, h⟩ := bind_ok.1 h
    cases h
    obtain ⟨a, b⟩ := drFactorLoop_length h1
    exact ⟨by simpa using a, by simpa using b⟩

theorem rdrSetupLoop_length {L : Lapack F} {drscale : List F} : ∀ {k ii : ℕ} {R : Mat F n}
    {r}, rdrSetupLoop L drscale k ii R = .ok r → r.1.length = k ∧ r.2.length = k
  | 0, _, _, _, h => by cases h; exact ⟨rfl, rfl⟩
  | k + 1, ii, R, r, h => by
    unfold rdrSetupLoop at h
    obtain ⟨s, _, h⟩ := bind_ok.1 h
    obtain ⟨iR, _, h⟩ := bind_ok.1 h
    obtain ⟨⟨l, il⟩, h1, h⟩ := bind_ok.1 h
    cases h
    obtain ⟨a, b⟩ := rdrSetupLoop_length h1
    exact ⟨by simpa using a, by simpa using b⟩

theorem safe_updateDelayedRejection {L : Lapack F} {R : Mat F n} {ntry : ℕ} {drscale : List F}
    (h : 1 < ntry → drscale ≠ [] ∧ (A .linAlgError ∨ (L.inverse R).isSome)) :
    Safe A (updateDelayedRejection L R ntry drscale) := by
  unfold updateDelayedRejection
  split
  · rename_i hn
    have hs : Safe A (orRaise (L.inverse R) .linAlgError) := by
      rcases (h hn).2 with h | h
      · exact safe_orRaise' _ h
      · exact safe_orRaise h _
    exact hs.bind fun _ _ =>
      (safe_drFactorLoop (h hn).1 _ _ _ _).bind fun _ _ => .ok _
  · exact .ok _

theorem updateDelayedRejection_factors {L : Lapack F} {c : CovState F n} {ntry : ℕ}
    {drscale : List F} (hn : 1 < ntry)
    (h : updateDelayedRejection L c.R ntry drscale = .ok (c.RDR, c.invR)) : HasFactors ntry c := by
  unfold updateDelayedRejection at h
  rw [if_pos hn] at h
  obtain ⟨iR, _, h⟩ := bind_ok.1 h
  obtain ⟨⟨l, il⟩, h1, h⟩ := bind_ok.1 h
  have h := Except.ok.inj h
  rw [Prod.mk.injEq] at h
  obtain ⟨a, b⟩ := drFactorLoop_length h1
  dsimp only at a b
  exact ⟨c.R :: l, iR :: il, h.1.symm, h.2.symm, by simp; omega, by simp; omega⟩

theorem safe_newCovariance {c : CovState F n} {o : AdaptOpts F} {i : ℕ} {cc : Option (Mat F n)}
    {u : Vec F n} {alpha : Option F} (h1 : o.doram = true → alpha.isSome)
    (h2 : o.doram = false → cc.isSome) : Safe A (newCovariance c o i cc u alpha) := by
  unfold newCovariance
  split
  · rename_i h; exact (safe_orRaise (h1 h) _).bind fun _ _ => .ok _
  · rename_i h; exact (safe_orRaise (h2 (by simpa using h)) _).bind fun _ _ => .ok _

/-! ### Error variance -/

theorem safe_mtInner (hA : A .outOfFuel) (G : Rng σ F) (c : F) : ∀ (k : ℕ) (s : σ),
    Safe A (mtInner G c k s)
  | 0, _ => .error hA
  | k + 1, s => by
    unfold mtInner
    dsimp only
    split
    · exact .ok _
    · exact safe_mtInner hA G c k _

theorem safe_mtOuter (hA : A .outOfFuel) (G : Rng σ F) (c d : F) : ∀ (k : ℕ) (s : σ),
    Safe A (mtOuter G c d k s)
  | 0, _ => .error hA
  | k + 1, s => by
    unfold mtOuter
    refine (safe_mtInner hA G c _ _).bind fun r _ => ?_
    dsimp only
    split
    · exact .ok _
    · split
      · exact .ok _
      · exact safe_mtOuter hA G c d k _

theorem safe_gammarMt1 (hA : A .outOfFuel) (G : Rng σ F) : ∀ (k : ℕ) (a b : F) (s : σ),
    Safe A (gammarMt1 G k a b s)
  | 0, _, _, _ => .error hA
  | k + 1, a, b, s => by
    unfold gammarMt1
    split
    · exact (safe_gammarMt1 hA G k _ _ _).bind fun r _ => .ok _
    · exact (safe_mtOuter hA G _ _ _ _).bind fun r _ => .ok _

theorem safe_gammar (hA : A .outOfFuel) (G : Rng σ F) (k : ℕ) (a b : F) (s : σ) :
    Safe A (gammar G k a b s) := by
  unfold gammar
  split
  · exact .ok _
  · exact safe_gammarMt1 hA G k a b s

/-- The rejection loop of the gamma generator does not end within the bound, for one of the shapes
`(N0 + N)/2` and some scale of the form `2/(N0*S20 + SS)`. -/
def RunsOut (G : Rng σ F) (fuel : ℕ) (N0 : Vec F m) (N : List F) : Prop :=
  ∃ (j : Fin m) (Nj S20 SS : F) (s : σ), N[(j : ℕ)]? = some Nj ∧
    gammar G fuel (lit (1/2) * (N0 j + Nj)) (lit 2 * (lit 1 / (N0 j * S20 + SS))) s
      = .error .outOfFuel

theorem safe_updateErrorVariance {G : Rng σ F} {fuel : ℕ} {M : ErrModel F m}
    (hA : RunsOut G fuel M.N0 M.N → A .outOfFuel) (ss : Vec F m)
    (hM : m ≤ M.N.length) (s : σ) :
    Safe A (updateErrorVariance G fuel ss M s) := by
  unfold updateErrorVariance
  refine foldlM_list_safe (P := fun acc => acc.1.N = M.N ∧ acc.1.N0 = M.N0) _ _ ⟨rfl, rfl⟩
    (fun jj _ acc hacc => ?_) (fun jj _ acc acc' hacc h => ?_)
  · unfold sigmaStep
    refine (safe_pyGet (by rw [hacc.1]; have := jj.2; omega)).bind fun Nj hNj =>
      Safe.bind (fun e he => ?_) fun _ _ => .ok _
    have he' : e = .outOfFuel := safe_gammar (A := fun e => e = .outOfFuel) rfl _ _ _ _ _ e he
    subst he'
    rw [hacc.1] at hNj
    rw [hacc.2] at he
    exact hA ⟨jj, Nj, _, _, _, pyGet_ok.1 hNj, he⟩
  · unfold sigmaStep at h
    obtain ⟨_, _, h⟩ := bind_ok.1 h
    obtain ⟨_, _, h⟩ := bind_ok.1 h
    cases h
    exact hacc

theorem updateErrorVariance_N {G : Rng σ F} {fuel : ℕ} {ss : Vec F m} {M : ErrModel F m} {s : σ}
    {r : ErrModel F m × σ} (h : updateErrorVariance G fuel ss M s = .ok r) :
    r.1.N = M.N := by
  unfold updateErrorVariance at h
  refine foldlM_list_inv (P := fun acc => acc.1.N = M.N) _ _ _ rfl (fun jj _ acc acc' hacc h => ?_) h
  unfold sigmaStep at h
  obtain ⟨_, _, h⟩ := bind_ok.1 h
  obtain ⟨_, _, h⟩ := bind_ok.1 h
  cases h
  exact hacc

/-! ### The loop -/

/-- conditions on the options under which a loop cannot fail for lack of something -/
structure GoodOpts (E : Env F σ N n m) : Prop where
  npos : 0 < n
  sos : Computes E.problem.style1 E.problem.sosFun
  ram : E.opts.doram = true → E.opts.ntry ≤ 1
  burnin : 1 < E.opts.ntry → 0 < E.opts.adaptint →
    E.opts.burnintime ≤ E.opts.adaptint ∧ E.opts.drscale ≠ []

/-- the errors that remain possible -/
def Allowed (E : Env F σ N n m) (M : ErrModel F m) (e : PyErr) : Prop :=
  (e = .linAlgError ∧ 1 < E.opts.ntry ∧ 0 < E.opts.adaptint) ∨
  (e = .outOfFuel ∧ E.opts.updatesigma = true ∧ RunsOut E.rng E.fuel M.N0 M.N)

/-- invariant of the loop that guarantees progress -/
structure Fit (E : Env F σ N n m) (c0 : ℕ) (i : ℕ) (s : SimState F σ N n m) : Prop where
  idx : s.chainIndex + 1 = c0 + i
  chain : s.chain.length = c0 + E.opts.nsimu
  sschain : s.sschain.length = c0 + E.opts.nsimu
  s2 : E.opts.updatesigma = true → ∃ c, s.s2chain = some c ∧ c.length = c0 + E.opts.nsimu
  obs : E.opts.updatesigma = true → m ≤ s.errModel.N.length
  cov : s.cov.covchain.isSome → s.cov.meanchain.isSome ∧ s.cov.wsum.isSome
  last : s.cov.lastIndex < i
  ii : s.iiadapt < i
  dr : 1 < E.opts.ntry → HasFactors E.opts.ntry s.cov ∧ s.dr.iacce.length = E.opts.ntry

theorem safe_propose {E : Env F σ N n m} (hE : GoodOpts E) {s : SimState F σ N n m}
    (hd : 1 < E.opts.ntry → HasFactors E.opts.ntry s.cov ∧ s.dr.iacce.length = E.opts.ntry) :
    Safe A (propose E s) := by
  unfold propose
  refine (safe_metropolis hE.sos _ _ _ _).bind fun ⟨r, z⟩ _ => ?_
  dsimp only
  split
  · rename_i h
    obtain ⟨⟨l, il, h1, h2, h3, h4⟩, h5⟩ := hd h.1
    rw [h1, h2]
    exact (safe_runDelayedRejection hE.sos _ _ _ h.1 h3 h4 _ h5).bind fun _ _ => .ok _
  · exact .ok _

theorem propose_iacce {E : Env F σ N n m} {s : SimState F σ N n m} {p : Proposal F σ N n m}
    (h : propose E s = .ok p) : p.dr.iacce.length = s.dr.iacce.length := by
  unfold propose at h
  obtain ⟨r, _, h⟩ := bind_ok.1 h
  dsimp only at h
  split at h
  · rename_i hn
    obtain ⟨⟨o2, dr, ts⟩, h1, h⟩ := bind_ok.1 h
    cases h
    exact runDelayedRejection_iacce hn.1 h1
  · cases h; rfl

theorem propose_alpha {E : Env F σ N n m} {s : SimState F σ N n m} {p : Proposal F σ N n m}
    (h : propose E s = .ok p) (hn : E.opts.ntry ≤ 1) : p.newSet.alpha.isSome := by
  unfold propose at h
  obtain ⟨⟨r, z⟩, h1, h⟩ := bind_ok.1 h
  dsimp only at h
  rw [if_neg (by omega)] at h
  cases h
  dsimp only
  unfold runMetropolisStep at h1
  dsimp only at h1
  split at h1
  · cases h1; rfl
  · obtain ⟨_, _, h1⟩ := bind_ok.1 h1
    cases h1; rfl

/-- the state of an iteration before its proposal -/
def stepStart (s : SimState F σ N n m) : SimState F σ N n m :=
  { s with iiadapt := s.iiadapt + 1, savecount := s.savecount + 1, chainIndex := s.chainIndex + 1 }

theorem Fit.safe' {E : Env F σ N n m} (hE : GoodOpts E) {c0 i : ℕ} {s : SimState F σ N n m}
    (h : Fit E c0 i s) (hi' : i < E.opts.nsimu)
    (hsig : E.opts.updatesigma = true → ∀ p, propose E (stepStart s) = .ok p →
      Safe A (updateErrorVariance E.rng E.fuel (currentSet s p).ss s.errModel p.world.rng))
    (hlin : 1 < E.opts.ntry → 0 < E.opts.adaptint → ∀ p s1 r up, propose E (stepStart s) = .ok p →
      record (stepStart s) p = .ok s1 →
      updateCovarianceMeanSum (pySlice s1.chain s1.cov.lastIndex s1.chainIndex) (some [lit 1])
        s1.cov.covchain s1.cov.meanchain s1.cov.wsum = .ok r →
      newCovariance s1.cov E.opts.toAdaptOpts i r.1 p.u p.newSet.alpha = .ok up →
      A .linAlgError ∨ (E.lapack.inverse (checkForSingular E.lapack up s1.cov.R E.opts.qcovAdjust
        s1.cov.qcovScale)).isSome) :
    Safe A (simStep E s i) := by
  have hidx := h.idx
  have hl := h.chain
  have hl' := h.sschain
  unfold simStep
  dsimp only
  refine (safe_propose hE h.dr).bind fun p hp => ?_
  have hrec : Safe A (record { s with
      iiadapt := s.iiadapt + 1, savecount := s.savecount + 1, chainIndex := s.chainIndex + 1 } p) := by
    unfold record
    dsimp only
    exact (safe_pySet (by omega) _).bind fun _ _ => (safe_pySet (by omega) _).bind fun _ _ => .ok _
  refine hrec.bind fun s1 h1 => ?_
  have h1' := h1
  obtain ⟨_, _, h1⟩ := record_ok h1
  have had : Safe A (adapt E i s1 p) := by
    unfold adapt
    split
    · rename_i ha
      refine Safe.bind ?_ fun _ _ => .ok _
      have hcov : s1.cov = s.cov := by rw [h1]
      have hii : s1.iiadapt = s.iiadapt + 1 := by rw [h1]
      have hci : s1.chainIndex = s.chainIndex + 1 := by rw [h1]
      have hch : s1.chain.length = c0 + E.opts.nsimu := by
        rw [h1]; dsimp only; rw [List.length_set, hl]
      unfold runAdaptation
      split
      · exact .ok _
      · rename_i hb
        refine (safe_updateCov (by rw [hcov]; exact h.cov)).bind fun r hr => ?_
        have hne : pySlice s1.chain s1.cov.lastIndex s1.chainIndex ≠ [] := by
          intro h0
          have := congrArg List.length h0
          simp only [pySlice, List.length_drop, List.length_take, List.length_nil, hch, hcov, hci]
            at this
          have := h.last
          omega
        obtain ⟨q1, q2, q3⟩ := updateCov_isSome hne hE.npos hr
        refine (safe_newCovariance (fun hd => propose_alpha hp (hE.ram hd)) fun _ => q1).bind
          fun up hup => ?_
        refine (safe_updateDelayedRejection fun hn => ?_).bind fun _ _ => .ok _
        exact ⟨(hE.burnin hn ha.1).2, hlin hn ha.1 p s1 r up hp h1' hr hup⟩
    · exact .ok _
  refine had.bind fun s2 h2 => ?_
  obtain ⟨_, h2⟩ := adapt_ok h2
  have hsig' : Safe A (sampleSigma E s2) := by
    unfold sampleSigma
    split
    · rename_i hu
      have e1 : s2.errModel = s.errModel := by rw [h2]; split <;> rw [h1]
      have e2 : s2.s2chain = s.s2chain := by rw [h2]; split <;> rw [h1]
      have e3 : s2.chainIndex = s.chainIndex + 1 := by rw [h2]; split <;> rw [h1]
      have e4 : s2.oldSet = currentSet s p := by rw [h2]; split <;> rw [h1] <;> rfl
      have e5 : s2.world = p.world := by rw [h2]; split <;> rw [h1]
      obtain ⟨c, hc, hc'⟩ := h.s2 hu
      refine Safe.bind (by rw [e1, e4, e5]; exact hsig hu p hp)
        fun _ _ => (safe_orRaise (by rw [e2, hc]; rfl) _).bind fun c' hc'' => ?_
      rw [orRaise_ok, e2, hc] at hc''
      cases hc''
      exact (safe_pySet (by rw [e3]; omega) _).bind fun _ _ => .ok _
    · exact .ok _
  exact hsig'.bind fun _ _ => .ok _

theorem Fit.safe {E : Env F σ N n m} (hE : GoodOpts E) {c0 i : ℕ} {s : SimState F σ N n m}
    (h : Fit E c0 i s) (hi' : i < E.opts.nsimu) :
    Safe (Allowed E s.errModel) (simStep E s i) :=
  h.safe' hE hi' (fun hu _ _ => safe_updateErrorVariance (fun hr => .inr ⟨rfl, hu, hr⟩) _ (h.obs hu) _) fun hn ha _ _ _ _ _ _ _ _ => .inl (.inl ⟨rfl, hn, ha⟩)

theorem Fit.step {E : Env F σ N n m} (hE : GoodOpts E) {c0 i : ℕ} {s s' : SimState F σ N n m}
    {p : Proposal F σ N n m} (h : Fit E c0 i s) (hp : StepSpec E i s s' p) : Fit E c0 (i + 1) s' := by
  have hcov := hp.cov
  have hidx := h.idx
  refine ⟨by rw [hp.idx]; omega, by rw [hp.chain, List.length_set, h.chain],
    by rw [hp.sschain, List.length_set, h.sschain], fun hu => ?_, fun hu => ?_, ?_, ?_, ?_, fun hn => ?_⟩
  · have he := hp.errModel
    rw [if_pos hu] at he
    obtain ⟨c, r, h1, h2, h3, _⟩ := he
    obtain ⟨c', h4, h5⟩ := h.s2 hu
    rw [h1] at h4; cases h4
    exact ⟨_, h3, by rw [List.length_set, h5]⟩
  · have he := hp.errModel
    rw [if_pos hu] at he
    obtain ⟨c, r, h1, h2, h3, h4, _⟩ := he
    rw [show s'.errModel.N = _ from updateErrorVariance_N h4]
    exact h.obs hu
  · by_cases ha : adaptNow E s
    · rw [if_pos ha] at hcov
      rcases runAdaptation_ok hcov with ⟨_, hc⟩ | ⟨_, hc⟩
      · rw [hc]; exact h.cov
      · intro _
        have hne : pySlice s'.chain s.cov.lastIndex (s.chainIndex + 1) ≠ [] := by
          intro h0
          have := congrArg List.length h0
          simp only [pySlice, List.length_drop, List.length_take, List.length_nil, hp.chain,
            List.length_set] at this
          have := h.last
          have := hp.lt
          have := h.idx
          omega
        exact (updateCov_isSome hne hE.npos hc.update).2
    · rw [if_neg ha] at hcov
      rw [hcov]; exact h.cov
  · by_cases ha : adaptNow E s
    · rw [if_pos ha] at hcov
      rcases runAdaptation_ok hcov with ⟨_, hc⟩ | ⟨_, hc⟩
      · rw [hc]; exact Nat.lt_succ_of_lt h.last
      · rw [hc.lastIndex]; omega
    · rw [if_neg ha] at hcov
      rw [hcov]; exact Nat.lt_succ_of_lt h.last
  · rw [hp.iiadapt]
    have := h.ii
    split <;> omega
  · obtain ⟨h1, h2⟩ := h.dr hn
    refine ⟨?_, by rw [hp.dr, ← h2]; exact propose_iacce hp.prop⟩
    by_cases ha : adaptNow E s
    · rw [if_pos ha] at hcov
      rcases runAdaptation_ok hcov with ⟨hb, hc⟩ | ⟨_, hc⟩
      · exfalso
        have := h.ii
        have h3 := (hE.burnin hn ha.1).1
        have h4 := ha.2
        omega
      · exact updateDelayedRejection_factors hn hc.dr
    · rw [if_neg ha] at hcov
      rw [hcov]; exact h1

theorem safe_executeSimulator {E : Env F σ N n m} (hE : GoodOpts E) {s : SimState F σ N n m}
    (h : Fit E s.chainIndex 1 (loopStart s)) (hn : 1 < E.opts.nsimu) :
    Safe (Allowed E s.errModel) (executeSimulator E s) := by
  unfold executeSimulator
  refine (foldlM_safe (P := fun i s' => Fit E s.chainIndex i s' ∧ s'.errModel.N0 = s.errModel.N0 ∧
      s'.errModel.N = s.errModel.N) _ _ _ ⟨h, rfl, rfl⟩
    (fun i s' hi hi' hf => ?_)
    (fun i s' s'' hi hi' hf hs => ?_)).bind fun s' _ => ?_
  · have := hf.1.safe hE (i := i) (by omega)
    unfold Allowed at this ⊢
    rw [hf.2.1, hf.2.2] at this
    exact this
  · obtain ⟨p, hp⟩ := simStep_ok hs
    refine ⟨hf.1.step hE hp, ?_⟩
    have he := hp.errModel
    split at he
    · obtain ⟨_, _, _, _, _, e, _⟩ := he
      have := updateErrorVariance_ok e
      exact ⟨this.1.trans hf.2.1, this.2.1.trans hf.2.2⟩
    · rw [he.1]; exact hf.2
  · unfold finish
    rw [if_neg (by omega)]
    exact .ok _

theorem fit_final {E : Env F σ N n m} (hE : GoodOpts E) {s s' : SimState F σ N n m}
    (h : Fit E s.chainIndex 1 (loopStart s)) (hx : executeSimulator E s = .ok s') :
    Fit E s.chainIndex E.opts.nsimu s' := by
  obtain ⟨_, s1, hf, hfin⟩ := executeSimulator_inv (P := fun i s' => Fit E s.chainIndex i s') h
    (fun i a b p hi _ hP hp => hP.step hE hp) hx
  rw [hfin]
  exact ⟨hf.idx, hf.chain, hf.sschain, hf.s2, hf.obs, hf.cov, hf.last, hf.ii, hf.dr⟩

end Verif
