import Verif.Props.ErrorVariance

/-! # C23: sampled error variances are positive and finite -/

set_option linter.unusedSectionVars false

namespace Verif
variable {σ : Type} {N m : ℕ} {flags : Fin N → Bool}

/-- finite and strictly positive -/
def Pos (x : XR) : Prop := ∃ r : ℝ, x = .fin r ∧ 0 < r

/-- normal draws are finite, uniform draws are finite and strictly positive -/
structure OpenDraws (G : Rng σ XR) : Prop where
  normal : ∀ n s i, ∃ z, (G.randn n s).1 i = .fin z
  uniform : ∀ s, ∃ u, (G.rand s).1 = .fin u ∧ 0 < u

theorem mtInner_pos {G : Rng σ XR} (hG : OpenDraws G) {c : ℝ} :
    ∀ {k : ℕ} {s : σ} {x v : XR} {s' : σ}, mtInner G (.fin c) k s = .ok (x, v, s') → Pos v
  | 0, _, _, _, _, h => by cases h
  | k + 1, s, x, v, s', h => by
    unfold mtInner at h
    dsimp only at h
    obtain ⟨z, hz⟩ := hG.normal 1 s 0
    rw [hz] at h
    split at h
    · rename_i hv
      cases h
      simp at hv
      exact ⟨_, by simp, hv⟩
    · exact mtInner_pos hG h

theorem Pos.mul {a b : XR} (ha : Pos a) (hb : Pos b) : Pos (a * b) := by
  obtain ⟨x, rfl, hx⟩ := ha
  obtain ⟨y, rfl, hy⟩ := hb
  exact ⟨x * y, rfl, mul_pos hx hy⟩

theorem mtOuter_pos {G : Rng σ XR} (hG : OpenDraws G) {c : ℝ} {d : XR} :
    ∀ {k : ℕ} {s : σ} {v : XR} {s' : σ}, mtOuter G (.fin c) d k s = .ok (v, s') → Pos v
  | 0, _, _, _, h => by cases h
  | k + 1, s, v, s', h => by
    unfold mtOuter at h
    obtain ⟨⟨x, v1, s1⟩, h1, h⟩ := bind_ok.1 h
    have hv := mtInner_pos hG h1
    dsimp only at h
    split at h
    · cases h; exact (hv.mul hv).mul hv
    · split at h
      · cases h; exact (hv.mul hv).mul hv
      · exact mtOuter_pos hG h

theorem gammarMt1_pos {G : Rng σ XR} (hG : OpenDraws G) : ∀ {k : ℕ} {a : ℝ} {b : XR} {s s' : σ}
    {g : XR}, 0 < a → Pos b → gammarMt1 G k (.fin a) b s = .ok (g, s') → Pos g
  | 0, _, _, _, _, _, _, _, h => by cases h
  | k + 1, a, b, s, s', g, ha, hb, h => by
    unfold gammarMt1 at h
    split at h
    · obtain ⟨⟨y, s1⟩, h1, h⟩ := bind_ok.1 h
      cases h
      have e : (lit 1 : XR) + .fin a = .fin (1 + a) := by simp
      rw [e] at h1
      have hy := gammarMt1_pos hG (by linarith) hb h1
      obtain ⟨u, hu, hu0⟩ := hG.uniform s1
      have e2 : (lit 1 : XR) / .fin a = .fin (1 / a) := by
        rw [XR.lit_eq, XR.fin_div ha.ne']; simp
      refine hy.mul ?_
      rw [hu, e2, XR.pow_fin hu0]
      exact ⟨_, rfl, Real.rpow_pos_of_pos hu0 _⟩
    · rename_i ha1
      obtain ⟨⟨v, s1⟩, h1, h⟩ := bind_ok.1 h
      cases h
      have ha1 : 1 ≤ a := by simpa using ha1
      have e : (XR.fin a - lit (1/3) : XR) = .fin (a - 1/3) := by simp
      have hd : (0:ℝ) < 9 * (a - 1/3) := by linarith
      have e2 : (lit 1 / PyFloat.sqrt (lit 9 * XR.fin (a - 1/3)) : XR)
          = .fin (1 / Real.sqrt (9 * (a - 1/3))) := by
        rw [XR.lit_eq, XR.lit_eq, XR.fin_mul]
        rw [show (((9:ℚ):ℝ)) = 9 by norm_num, XR.sqrt_fin hd.le,
          XR.fin_div (Real.sqrt_pos.2 hd).ne']
        simp
      rw [e, e2] at h1
      rw [e]
      exact (hb.mul ⟨_, rfl, by linarith⟩).mul (mtOuter_pos hG h1)

theorem gammar_pos {G : Rng σ XR} (hG : OpenDraws G) {k : ℕ} {a : ℝ} {b : XR} {s s' : σ} {g : XR}
    (ha : 0 < a) (hb : Pos b) (h : gammar G k (.fin a) b s = .ok (g, s')) : Pos g := by
  unfold gammar at h
  rw [if_neg (by simp [ha])] at h
  exact gammarMt1_pos hG ha hb h

theorem Pos.inv {x : XR} (hx : Pos x) : Pos (lit 1 / x) := by
  obtain ⟨r, rfl, hr⟩ := hx
  exact ⟨1 / r, by rw [XR.lit_eq, XR.fin_div hr.ne']; simp, by positivity⟩

/-- A draw with a positive number of degrees of freedom and a positive sum. -/
theorem drawnFrom_pos {G : Rng σ XR} (hG : OpenDraws G) {k : ℕ} {a b t r : ℝ} {x : XR}
    (hab : 0 < a + b) (hsum : 0 < a * t + r)
    (h : DrawnFrom G k (.fin a) (.fin b) (.fin t) (.fin r) x) : Pos x := by
  obtain ⟨s, g, s', h, rfl⟩ := h
  have e1 : (lit (1/2) * (XR.fin a + .fin b) : XR) = .fin (1/2 * (a + b)) := by simp
  have e2 : Pos (lit 2 * (lit 1 / (XR.fin a * .fin t + .fin r)) : XR) := by
    refine Pos.mul ⟨2, by simp, two_pos⟩ (Pos.inv ⟨_, by simp, hsum⟩)
  rw [e1] at h
  exact (gammar_pos hG (by linarith) e2 h).inv

/-- **C23.** In exact arithmetic, with finite normal draws and uniform draws in the open unit
interval: if for every sum of squares the degrees of freedom `N0 + N` are positive, `S20` is positive,
the user's function returns finite non-negative values, and these are positive where `N0` is zero
(so that `N0*S20 + SS` is positive), then every error variance sampled in a run from scratch is finite
and strictly positive.  This includes runs where `S20` is overwritten by the draws (C22). -/
theorem C23_positive {U : UserFuns XR N (nS flags) m} {specs : Fin N → ParamSpec XR}
    {opts : SimOpts XR} {extra : ExtraOpts XR (nS flags)} {ms : ModelSettings XR} {data : Data}
    {G : Rng σ XR} {L : Lapack XR} {fuel : ℕ} {rng : σ} {out : RunOut XR σ flags m}
    (h : runSimulation U G L fuel (newObj specs opts extra ms data) rng false = .ok out)
    (hu : ms.N0.isSome ∨ opts.updatesigma = true) (hG : OpenDraws G)
    (hN : ∀ (j : Fin m) Nj, out.init.errModel.N[(j : ℕ)]? = some Nj →
      ∃ a b, out.init.errModel.N0 j = .fin a ∧ Nj = .fin b ∧ 0 ≤ a ∧ 0 < a + b)
    (hS : ∀ j, Pos (out.init.errModel.s20 j))
    (hsos : ∀ v ss, SosValue U v ss → ∀ j, ∃ r, ss j = .fin r ∧ 0 ≤ r ∧
      (out.init.errModel.N0 j = .fin 0 → 0 < r)) :
    ∃ c, out.results.s2chain = some c ∧ (c.length : ℤ) = opts.nsimu ∧
      ∀ k, 0 < k → ∀ row, c[k]? = some row → ∀ j, Pos (row j) := by
  obtain ⟨c, e1, e2, e3, e4, e5⟩ := run_sigma h hu
  obtain ⟨hlen, hrows⟩ := C03_sums_of_squares_belong_to_rows (.start : Reachable U _ _) h
  have hss : ∀ (k : ℕ) ss, out.results.sschain[k]? = some ss → ∃ v, SosValue U v ss := by
    intro k ss hk
    have hk' := (List.getElem?_eq_some_iff.1 hk).1
    obtain ⟨ss', v, h1, _, h3⟩ := hrows k _ (List.getElem?_eq_getElem (by omega))
    rw [hk] at h1; cases h1
    exact ⟨v, h3⟩
  have hread : ∀ prev : Vec XR m, (∀ j, Pos (prev j)) →
      ∀ j, Pos (out.init.errModel.S20.read prev j) := by
    intro prev hp j
    have := hS j
    rw [s20_eq] at this
    cases hx : out.init.errModel.S20 with
    | own v => rw [hx] at this; exact this
    | aliasSigma2 => exact hp j
  have hstep : ∀ k, k + 1 < c.length → (∀ prev, c[k]? = some prev →
      ∀ j, Pos (out.init.errModel.S20.read prev j)) →
      ∀ row, c[k + 1]? = some row → ∀ j, Pos (row j) := by
    intro k hk hp row hrow j
    obtain ⟨prev, row', ss, g1, g2, g3, g4⟩ := e5 k hk
    rw [hrow] at g2; cases g2
    obtain ⟨Nj, q1, q2⟩ := g4 j
    obtain ⟨a, b, r1, rfl, r3, r4⟩ := hN j Nj q1
    obtain ⟨v, hv⟩ := hss _ _ g3
    obtain ⟨r, t1, t2, t3⟩ := hsos v ss hv j
    obtain ⟨t, s1, s2⟩ := hp prev g1 j
    rw [r1, s1, t1] at q2
    refine drawnFrom_pos hG r4 ?_ q2
    rcases r3.eq_or_lt with ha | ha
    · have := t3 (by rw [r1, ← ha]); rw [← ha]; linarith
    · have := mul_pos ha s2; linarith
  have hall : ∀ k, ∀ row, c[k + 1]? = some row → ∀ j, Pos (row j) := by
    intro k
    induction k with
    | zero =>
      intro row hrow
      have hlt := (List.getElem?_eq_some_iff.1 hrow).1
      refine hstep 0 hlt (fun prev hp j => ?_) row hrow
      rw [e4] at hp; cases hp
      have := hS j
      rw [s20_eq] at this
      exact this
    | succ k ih =>
      intro row hrow
      have hlt := (List.getElem?_eq_some_iff.1 hrow).1
      exact hstep (k + 1) hlt (fun prev hp => hread prev (ih prev hp)) row hrow
  refine ⟨c, e1, e3, fun k hk row hrow => ?_⟩
  obtain ⟨k, rfl⟩ : ∃ k', k = k' + 1 := ⟨k - 1, by omega⟩
  exact hall k row hrow

/-- **C23, refuted at zero.** numpy's uniform generator may return exactly zero.  With one degree of
freedom the sampled error variance is then infinite, although the sum of squares is positive. -/
theorem C23_zero_draw_refuted : ∃ (G : Rng Unit XR),
    (∀ n s i, ∃ z, (G.randn n s).1 i = .fin z) ∧
    (∀ s, ∃ u : ℝ, (G.rand s).1 = .fin u ∧ 0 ≤ u ∧ u < 1) ∧
    ∃ M', updateErrorVariance G 2 (fun _ : Fin 1 => .fin 1)
      ⟨fun _ => .fin 0, [.fin 1], .own fun _ => .fin 1, fun _ => .fin 1⟩ () = .ok (M', ()) ∧
      M'.sigma2 0 = .pinf := by
  let G : Rng Unit XR := ⟨fun _ s => (fun _ => .fin 0, s), fun s => (.fin 0, s)⟩
  refine ⟨G, fun _ _ _ => ⟨0, rfl⟩, fun _ => ⟨0, rfl, le_rfl, one_pos⟩, ?_⟩
  have hin : ∀ c : ℝ, mtInner G (.fin c) 1 () = .ok (.fin 0, .fin 1, ()) := by
    intro c
    unfold mtInner
    simp [G]
  have hout : ∀ (c : ℝ) (d : XR), mtOuter G (.fin c) d 1 () = .ok (.fin 1, ()) := by
    intro c d
    unfold mtOuter
    rw [hin, ok_bind]
    simp [mtQuick, G]
  have h1 : ∀ b : ℝ, gammarMt1 G 1 (.fin (3/2)) (.fin b) () = .ok (.fin (b * (7/6)), ()) := by
    intro b
    unfold gammarMt1
    rw [if_neg (by simp; norm_num)]
    dsimp only
    have e : (XR.fin (3/2) - lit (1/3) : XR) = .fin (7/6) := by simp; norm_num
    have e2 : (lit 1 / PyFloat.sqrt (lit 9 * XR.fin (7/6)) : XR)
        = .fin (1 / Real.sqrt (9 * (7/6))) := by
      rw [XR.lit_eq, XR.lit_eq, XR.fin_mul]
      rw [show (((9:ℚ):ℝ)) = 9 by norm_num, XR.sqrt_fin (by norm_num),
        XR.fin_div (Real.sqrt_pos.2 (by norm_num)).ne']
      simp
    rw [e, e2, hout, ok_bind]
    simp
  have h2 : ∀ b : ℝ, gammar G 2 (.fin (1/2)) (.fin b) () = .ok (.fin 0, ()) := by
    intro b
    unfold gammar
    rw [if_neg (by simp)]
    unfold gammarMt1
    rw [if_pos (by simp; norm_num)]
    have e : (lit 1 + XR.fin (1/2) : XR) = .fin (3/2) := by simp; norm_num
    have e2 : (lit 1 / XR.fin (1/2) : XR) = .fin 2 := by
      rw [XR.lit_eq, XR.fin_div (by norm_num)]; norm_num
    have e3 : PyFloat.pow (XR.fin 0) (XR.fin 2) = .fin 0 := by
      change XR.pow _ _ = _
      unfold XR.pow
      simp
    rw [e, h1, ok_bind, e2]
    dsimp only [G]
    rw [e3]
    simp
  refine ⟨⟨fun _ => .fin 0, [.fin 1], .own fun _ => .fin 1, fun _ => .pinf⟩, ?_, ?_⟩
  · unfold updateErrorVariance
    rw [show List.finRange 1 = [0] from rfl, List.foldlM_cons]
    have hs : sigmaStep G 2 (fun _ : Fin 1 => .fin 1)
        (⟨fun _ => .fin 0, [.fin 1], .own fun _ => .fin 1, fun _ => .fin 1⟩, ()) 0
        = .ok (⟨fun _ => .fin 0, [.fin 1], .own fun _ => .fin 1, fun _ => .pinf⟩, ()) := by
      unfold sigmaStep
      dsimp only
      rw [show pyGet [XR.fin 1] ((0 : Fin 1) : ℕ) = .ok (.fin 1) from rfl, ok_bind]
      have e1 : (lit (1/2) * (XR.fin 0 + .fin 1) : XR) = .fin (1/2) := by simp
      have e2 : (lit 2 * (lit 1 / (XR.fin 0 * .fin 1 + .fin 1)) : XR) = .fin 2 := by
        rw [XR.lit_eq, XR.lit_eq, XR.fin_mul, XR.fin_add, XR.fin_div (by norm_num)]; simp
      change (gammar G 2 _ (lit 2 * (lit 1 / (XR.fin 0 * .fin 1 + .fin 1))) () >>= _) = _
      rw [e1, e2, h2, ok_bind]
      congr 3
      funext j
      rw [Subsingleton.elim j 0]
      simp [XR.fin_div_zero]
    rw [hs]
    rfl
  · rfl

/-! a run that meets the hypotheses of `C23_positive` -/

namespace XRun

/-- the sum of squares is one everywhere -/
noncomputable def userOne : UserFuns XR 1 (nS XRun.flags) 1 where
  style1 := true
  sosFun _ _ := .ok fun _ => .fin 1
  priorFun _ _ _ := .fin 0

/-- three rows with error-variance sampling -/
def sigmaArgs : OptArgs XR := { method := .mh, nsimu := 3, updatesigma := true }

theorem err_ok {I : Init XR Unit XRun.flags 1}
    (hms : ∃ ms1, checkDependentModelSettings settings data.n data.nbatch = .ok ms1 ∧
      checkWrtNsos ms1 1 = .ok I.ms ∧ toErrModel I.ms 1 = .ok I.errModel) :
    I.errModel = ⟨fun _ => .fin 1, [.fin 5], .own fun _ => .fin 1, fun _ => .fin 1⟩ := by
  obtain ⟨ms1, h1, h2, h3⟩ := hms
  have h1' : checkDependentModelSettings settings data.n data.nbatch = .ok
      ⟨some [.fin 1], some [.fin 5], some [.fin 1], some 1, [.fin 1], false⟩ := by
    simp [checkDependentModelSettings, settings, defineModelSettings, defaultN0, data, addDataSet,
      ModelSettings.s20Now, Data.nbatch, convertNumpyArrayTo2d, convertToNumpyArray, ofInt]
    rfl
  rw [h1'] at h1
  cases h1
  have h2' : ∃ ms2 M, checkWrtNsos (⟨some [.fin 1], some [.fin 5], some [.fin 1], some 1, [.fin 1], false⟩ :
      ModelSettings XR) 1 = .ok ms2 ∧ toErrModel ms2 1 = .ok M ∧
      M = ⟨fun _ => .fin 1, [.fin 5], .own fun _ => .fin 1, fun _ => .fin 1⟩ := by
    refine ⟨_, _, rfl, rfl, ?_⟩
    simp only [ErrModel.mk.injEq]
    refine ⟨?_, ?_, ?_, ?_⟩
    · funext i; simp
    · simp
    · simp
    · funext i; simp
  obtain ⟨ms2, M, g1, g2, g3⟩ := h2'
  rw [g1] at h2
  cases h2
  rw [g2] at h3
  cases h3
  exact g3

theorem gammar_three (b : XR) : ∃ g, gammar XRun.rng 1 (.fin 3) b () = .ok (g, ()) := by
  have hin : ∀ c : ℝ, 0 < c → mtInner XRun.rng (.fin c) 1 () = .ok (.fin 1, .fin (1 + c), ()) := by
    intro c hc
    unfold mtInner
    have : 0 < 1 + c := by linarith
    simp [XRun.rng, this]
  unfold gammar
  rw [if_neg (by simp)]
  unfold gammarMt1
  rw [if_neg (by simp)]
  have e : (XR.fin 3 - lit (1/3) : XR) = .fin (8/3) := by simp; norm_num
  have e2 : (lit 1 / PyFloat.sqrt (lit 9 * XR.fin (8/3)) : XR)
      = .fin (1 / Real.sqrt (9 * (8/3))) := by
    rw [XR.lit_eq, XR.lit_eq, XR.fin_mul]
    rw [show (((9:ℚ):ℝ)) = 9 by norm_num, XR.sqrt_fin (by norm_num),
      XR.fin_div (Real.sqrt_pos.2 (by norm_num)).ne']
    simp
  dsimp only
  rw [e, e2]
  unfold mtOuter
  rw [hin _ (by positivity), ok_bind]
  have hq : mtQuick (XR.fin 1) (XR.fin (1/2)) = true := by
    simp [mtQuick]; norm_num
  dsimp only [XRun.rng]
  rw [if_pos hq]
  exact ⟨_, rfl⟩

end XRun

example : ∃ out : RunOut XR Unit XRun.flags 1,
    runSimulation XRun.userOne XRun.rng exactLapack 1 (XRun.obj XRun.sigmaArgs) () false = .ok out ∧
    ∃ c, out.results.s2chain = some c ∧ (c.length : ℤ) = 3 ∧
      ∀ k, 0 < k → ∀ row, c[k]? = some row → ∀ j, Pos (row j) := by
  obtain ⟨⟨o1, I, s0⟩, h⟩ := XRun.setup_okU XRun.userOne (fun v => by simp [XRun.userOne]) exactLapack
    XRun.sigmaArgs (by decide) rfl true 1 1
    (some (.variances 1 fun _ => .fin 1)) (.inr (.inl ⟨_, rfl⟩)) (fun h => absurd h (by decide))
  have hst := (setup_fresh h).1
  have hms := hst.init.ms
  rw [hst.ms, hst.data] at hms
  have hM := XRun.err_ok hms
  have hrun : ∃ out, runSimulation XRun.userOne XRun.rng exactLapack 1 (XRun.obj XRun.sigmaArgs) ()
      false = .ok out := by
    rcases C64_run_returns (G := XRun.rng) (fuel := 1) h (by decide) (by decide)
      (fun v => by simp [XRun.userOne]) (fun h => absurd h (by decide))
      (show XRun.data.n ≠ [] by decide) with h | ⟨_, h, _⟩ | ⟨_, _, j, Nj, S, SS, s, h1, h2⟩
    · exact h
    · exact absurd h (by decide)
    · exfalso
      rw [hM] at h1 h2
      have : j = 0 := Subsingleton.elim _ _
      subst this
      cases h1
      have e1 : (lit (1/2) * (XR.fin 1 + .fin 5) : XR) = .fin 3 := by simp; norm_num
      dsimp only at h2
      rw [e1] at h2
      obtain ⟨g, hg⟩ := XRun.gammar_three (lit 2 * (lit 1 / (XR.fin 1 * S + SS)))
      rw [hg] at h2
      cases h2
  obtain ⟨out, hrun⟩ := hrun
  have hM' : out.init.errModel = ⟨fun _ => .fin 1, [.fin 5], .own fun _ => .fin 1, fun _ => .fin 1⟩ :=
    XRun.err_ok (run_settings hrun)
  refine ⟨out, hrun, C23_positive hrun (.inr rfl)
    ⟨fun _ _ _ => ⟨1, rfl⟩, fun _ => ⟨1/2, rfl, by norm_num⟩⟩ ?_ ?_ ?_⟩
  · intro j Nj hj
    rw [hM'] at hj ⊢
    rw [Subsingleton.elim j 0] at hj
    cases hj
    exact ⟨1, 5, rfl, rfl, by norm_num, by norm_num⟩
  · intro j
    rw [hM']
    exact ⟨1, rfl, one_pos⟩
  · intro v ss hv j
    have : ss = fun _ => XR.fin 1 := by
      rcases hv with hv | ⟨hv, _⟩
      · exact (Except.ok.inj hv).symm
      · cases hv
    exact ⟨1, by rw [this], zero_le_one, fun _ => one_pos⟩

end Verif
