import Verif.Props.Progress
import Verif.Props.ErrorVariance

/-! # C158: the numbers of observations behind the error variances -/

set_option linter.unusedSectionVars false

namespace Verif

section general
variable {F σ : Type} [PyFloat F] {N m : ℕ} {flags : Fin N → Bool}

/-- The numbers `ud` which the user gives agree with the numbers `ds` of the data sets: entry by
entry, or one number stands for all data sets, or all numbers are that of the only data set. -/
def NAgrees (ud ds : List F) : Prop :=
  (ud.length = ds.length ∧ ∀ (i : ℕ) (a b : F), ud[i]? = some a → ds[i]? = some b → PyFloat.beq a b = true) ∨
  (∃ u, ud = [u] ∧ 1 < ds.length ∧ ∀ d ∈ ds, PyFloat.beq d u = true) ∨
  (∃ d, ds = [d] ∧ 1 < ud.length ∧ ∀ u ∈ ud, PyFloat.beq d u = true)

theorem arrayEqual_iff {a b : List F} : arrayEqual a b = true ↔
    a.length = b.length ∧ ∀ (i : ℕ) (x y : F), a[i]? = some x → b[i]? = some y → PyFloat.beq x y = true := by
  unfold arrayEqual
  rw [Bool.and_eq_true, decide_eq_true_eq]
  refine and_congr_right fun hl => ?_
  induction a generalizing b with
  | nil => simp
  | cons x a ih =>
    cases b with
    | nil => cases hl
    | cons y b =>
      simp only [List.length_cons, Nat.add_right_cancel_iff] at hl
      rw [List.zipWith_cons_cons, List.all_cons, Bool.and_eq_true, ih hl]
      constructor
      · rintro ⟨h1, h2⟩ (_ | i) u v hu hv
        · cases hu; cases hv; exact h1
        · exact h2 i u v (by simpa using hu) (by simpa using hv)
      · intro h
        exact ⟨h 0 x y rfl rfl, fun i u v hu hv => h (i + 1) u v (by simpa using hu) (by simpa using hv)⟩

/-- Numbers of observations are accepted exactly if they agree with the data. -/
theorem checkNumber_iff (ud ds : List F) :
    (NAgrees ud ds ∧ ∃ l, checkNumberOfObservations ud ds = .ok l ∧ (l = ds ∨ l = ud ∧ ds.length = 1)) ∨
    (¬ NAgrees ud ds ∧ checkNumberOfObservations ud ds = .error (.sysExit msgN)) := by
  unfold checkNumberOfObservations
  by_cases h1 : arrayEqual ud ds = true
  · rw [if_pos h1]
    exact .inl ⟨Or.inl (arrayEqual_iff.1 h1), _, rfl, .inl rfl⟩
  · have n1 := fun h => h1 (arrayEqual_iff.2 h)
    rw [if_neg h1]
    by_cases h2 : ds.length > ud.length ∧ ud.length = 1
    · rw [if_pos h2]
      obtain ⟨u, rfl⟩ := List.length_eq_one_iff.1 h2.2
      dsimp only
      by_cases h3 : (ds.all fun d => PyFloat.beq d u) = true
      · rw [if_pos h3]
        exact .inl ⟨Or.inr (.inl ⟨u, rfl, h2.1, List.all_eq_true.1 h3⟩), _, rfl, .inl rfl⟩
      · rw [if_neg h3]
        refine .inr ⟨?_, rfl⟩
        rintro (h | ⟨u', e, _, h⟩ | ⟨d, _, h, _⟩)
        · exact n1 h
        · cases e; exact h3 (List.all_eq_true.2 h)
        · simp at h
    · rw [if_neg h2]
      by_cases h4 : ud.length > ds.length ∧ ds.length = 1
      · rw [if_pos h4]
        obtain ⟨d, rfl⟩ := List.length_eq_one_iff.1 h4.2
        dsimp only
        by_cases h3 : (ud.all fun u => PyFloat.beq d u) = true
        · rw [if_pos h3]
          exact .inl ⟨Or.inr (.inr ⟨d, rfl, h4.1, List.all_eq_true.1 h3⟩), _, rfl, .inr ⟨rfl, rfl⟩⟩
        · rw [if_neg h3]
          refine .inr ⟨?_, rfl⟩
          rintro (h | ⟨u', e, h, _⟩ | ⟨d', e, _, h⟩)
          · exact n1 h
          · simp at h
          · cases e; exact h3 (List.all_eq_true.2 h)
      · rw [if_neg h4]
        refine .inr ⟨?_, rfl⟩
        rintro (h | ⟨u', rfl, h, _⟩ | ⟨d', rfl, h, _⟩)
        · exact n1 h
        · exact h2 ⟨h, rfl⟩
        · exact h4 ⟨h, rfl⟩

/-- the numbers of the data sets as floats -/
def countsOf (d : Data) : List F := d.n.map fun k : ℕ => ofInt k

/-- where the numbers of a run come from -/
theorem init_numbers {U : UserFuns F N (nS flags) m} {o : Obj F flags m} {rng : σ}
    {I : Init F σ flags m} (h : InitSpec U o rng I) :
    ∃ l, (o.ms.N.elim (.ok (countsOf o.data)) fun ud =>
        checkNumberOfObservations ud (countsOf o.data)) = .ok l ∧
      checkSizeOfObservations l m = .ok I.errModel.N := by
  obtain ⟨ms1, h1, h2, h3⟩ := h.ms
  unfold checkDependentModelSettings at h1
  obtain ⟨l, hl, h1⟩ := bind_ok.1 h1
  have hN1 : ms1.N = some l := by
    rcases hD : defaultN0 o.ms.sigma2 o.ms.N0 with ⟨a, b⟩
    rw [hD] at h1
    dsimp only at h1
    rw [← Except.ok.inj h1]
    split <;> rfl
  refine ⟨l, hl, ?_⟩
  unfold checkWrtNsos at h2
  obtain ⟨_, _, h2⟩ := bind_ok.1 h2
  obtain ⟨_, _, h2⟩ := bind_ok.1 h2
  obtain ⟨_, _, h2⟩ := bind_ok.1 h2
  obtain ⟨_, _, h2⟩ := bind_ok.1 h2
  obtain ⟨_, _, h2⟩ := bind_ok.1 h2
  obtain ⟨N', h4, h2⟩ := bind_ok.1 h2
  obtain ⟨N'', h5, h6⟩ := bind_ok.1 h2
  rw [orRaise_ok, hN1] at h4
  cases h4
  unfold toErrModel at h3
  split at h3
  · rename_i hN0
    split at h3
    · rw [← Except.ok.inj h3]
      dsimp only
      have h2 := Except.ok.inj h6
      rw [← h2] at hN0
      rw [h5]
      exact congrArg _ (Option.some.inj hN0)
    · cases h3
  · cases h3

/-- **C158.** Numbers of observations given as `N` that do not agree with the data sets are refused
with `SystemExit`, whatever the user's functions, before anything is evaluated or drawn. -/
theorem C158_refused {U : UserFuns F N (nS flags) m} {G : Rng σ F} {L : Lapack F} {fuel : ℕ}
    {o : Obj F flags m} {rng : σ} {ud : List F} (hud : o.ms.N = some ud)
    (hj : o.extra.jsonRestart = none) (h : ¬ NAgrees ud (countsOf o.data)) :
    runSimulation U G L fuel o rng false = .error (.sysExit msgN) := by
  have hc : checkNumberOfObservations ud (countsOf o.data) = .error (.sysExit msgN) := by
    rcases checkNumber_iff ud (countsOf o.data) with ⟨h', _⟩ | ⟨_, h'⟩
    · exact absurd h' h
    · exact h'
  have hd : checkDependentModelSettings o.ms o.data.n o.data.nbatch = .error (.sysExit msgN) := by
    unfold checkDependentModelSettings
    rw [hud]
    change (checkNumberOfObservations ud (countsOf o.data) >>= _) = _
    rw [hc]; rfl
  have hi : initializeSimulation U L o rng = .error (.sysExit msgN) := by
    unfold initializeSimulation
    dsimp only
    rw [hd]; rfl
  have hs : setupSimulator U L o rng false = .error (.sysExit msgN) := by
    unfold setupSimulator loadRestart
    rw [hj, if_neg (by simp)]
    change (initializeSimulation U L o rng >>= _) = _
    rw [hi]; rfl
  unfold runSimulation
  rw [hs]; rfl

/-- **C158.** The numbers given as `N` of every run that completes agree with the data sets. -/
theorem C158_agrees {U : UserFuns F N (nS flags) m} {G : Rng σ F} {L : Lapack F} {fuel : ℕ}
    {o : Obj F flags m} {rng : σ} {up : Bool} {out : RunOut F σ flags m}
    (h : runSimulation U G L fuel o rng up = .ok out) {ud : List F} (hud : o.ms.N = some ud) :
    NAgrees ud (countsOf o.data) := by
  obtain ⟨o1, I, s0, h1, h2, h3, h4, h5⟩ := runSimulation_ok h
  have hst := (setup_start h1).1
  obtain ⟨l, hl, _⟩ := init_numbers hst.init
  rw [hst.ms, hud, hst.data] at hl
  rcases checkNumber_iff ud (countsOf o.data) with ⟨h', _⟩ | ⟨_, h'⟩
  · exact h'
  · have hl : checkNumberOfObservations ud (countsOf o.data) = .ok l := hl
    rw [hl] at h'; cases h'

/-- **C158 (part).** The number of observations that stands behind the variance of a sum of squares.
With one data set it is the number of its observations, for every sum of squares; with several data
sets and a single sum of squares it is the sum of all of them; with several of both it is that of
the data set with the same number, and there are at least as many data sets as sums of squares.
Missing: a single data set with several equal numbers given for a single sum of squares, see
`C158_repeated_refuted`. -/
theorem C158_used_partial (hone : ∀ x : F, lit 1 * x = x)
    (heq : ∀ x y : F, PyFloat.beq x y = true → x = y)
    {U : UserFuns F N (nS flags) m} {G : Rng σ F} {L : Lapack F} {fuel : ℕ}
    {o : Obj F flags m} {rng : σ} {up : Bool} {out : RunOut F σ flags m}
    (h : runSimulation U G L fuel o rng up = .ok out)
    (hud : m = 1 → ∀ ud, o.ms.N = some ud → ud.length ≤ o.data.n.length) :
    (∀ k, o.data.n = [k] → ∀ i, i < m → out.init.errModel.N[i]? = some (ofInt k)) ∧
    (m = 1 → 1 < o.data.n.length →
      out.init.errModel.N = [lsum (o.data.n.map fun k : ℕ => (ofInt k : F))]) ∧
    (1 < m → 1 < o.data.n.length → m ≤ o.data.n.length ∧
      ∀ i k, i < m → o.data.n[i]? = some k → out.init.errModel.N[i]? = some (ofInt k)) := by
  obtain ⟨o1, I, s0, h1, h2, h3, h4, h5⟩ := runSimulation_ok h
  have hst := (setup_start h1).1
  obtain ⟨l, hl, hs⟩ := init_numbers hst.init
  rw [hst.ms, hst.data] at hl
  rw [h4]
  have hcl : (countsOf o.data : List F).length = o.data.n.length := by simp [countsOf]
  -- the numbers before they are compared with the sums of squares
  have hcase : l = countsOf o.data ∨
      (∃ k, o.data.n = [k] ∧ 1 < l.length ∧ m ≠ 1 ∧ ∀ x ∈ l, x = ofInt k) := by
    cases hN : o.ms.N with
    | none => rw [hN] at hl; exact .inl (Except.ok.inj hl).symm
    | some ud =>
      rw [hN] at hl
      have hl : checkNumberOfObservations ud (countsOf o.data) = .ok l := hl
      rcases checkNumber_iff ud (countsOf o.data) with ⟨ha, l', hl', hor⟩ | ⟨_, h'⟩
      · rw [hl] at hl'
        cases hl'
        rcases hor with e | ⟨rfl, e⟩
        · exact .inl e
        · rcases ha with ⟨e1, e2⟩ | ⟨u, _, e1, _⟩ | ⟨d, e1, e2, e3⟩
          · left
            apply List.ext_getElem? fun i => ?_
            cases g : l[i]? with
            | none =>
              rw [List.getElem?_eq_none_iff] at g
              exact (List.getElem?_eq_none_iff.2 (by omega)).symm
            | some x =>
              obtain ⟨hi, _⟩ := List.getElem?_eq_some_iff.1 g
              have hi' : i < (countsOf o.data : List F).length := by omega
              rw [List.getElem?_eq_getElem hi']
              exact congrArg some (heq _ _ (e2 i x _ g (List.getElem?_eq_getElem hi')))
          · omega
          · right
            rw [hcl] at e
            obtain ⟨k, hk⟩ := List.length_eq_one_iff.1 e
            have hd : d = ofInt k := by
              rw [countsOf, hk] at e1
              simpa using e1.symm
            refine ⟨k, hk, e2, fun hm => ?_, fun x hx => ?_⟩
            · have := hud hm l hN
              omega
            · rw [← heq _ _ (e3 x hx), hd]
      · rw [hl] at h'; cases h'
  unfold checkSizeOfObservations at hs
  rcases hcase with rfl | ⟨k, hk, hlen, hm, hall⟩
  · refine ⟨fun k hk i hi => ?_, fun hm hlen => ?_, fun hm hlen => ?_⟩
    · rw [countsOf, hk] at hs
      rw [← Except.ok.inj hs]
      simp [List.getElem?_replicate, hi, hone]
    · split at hs
      · rename_i e
        rw [← hcl, e] at hlen
        simp at hlen
      · rw [if_neg (by omega), if_pos ⟨hm, by omega⟩] at hs
        exact (Except.ok.inj hs).symm
    · split at hs
      · rename_i e
        rw [← hcl, e] at hlen
        simp at hlen
      · split at hs
        · cases hs
        · rename_i hn
          rw [if_neg (by omega)] at hs
          refine ⟨by omega, fun i k hi hk => ?_⟩
          rw [← Except.ok.inj hs, countsOf, List.getElem?_map, hk]
          rfl
  · refine ⟨fun k' hk' i hi => ?_, fun hm' => absurd hm' hm, fun _ hl' => by rw [hk] at hl'; simp at hl'⟩
    rw [hk] at hk'
    cases hk'
    split at hs
    · simp at hlen
    · split at hs
      · cases hs
      · rename_i hn
        rw [if_neg (by omega)] at hs
        have hi' : i < l.length := by omega
        rw [← Except.ok.inj hs, List.getElem?_eq_getElem hi', hall _ (List.getElem_mem hi')]

/-- **C158 fails** for a single data set whose number is given more than once for a single sum of
squares: the numbers are added up, so observations are counted as often as the number was given. -/
theorem C158_repeated_refuted {U : UserFuns F N (nS flags) 1} {G : Rng σ F} {L : Lapack F}
    {fuel : ℕ} {o : Obj F flags 1} {rng : σ} {up : Bool} {out : RunOut F σ flags 1}
    (h : runSimulation U G L fuel o rng up = .ok out) {ud : List F} (hud : o.ms.N = some ud)
    (hlen : 1 < ud.length) {k : ℕ} (hk : o.data.n = [k]) :
    out.init.errModel.N = [lsum ud] := by
  obtain ⟨o1, I, s0, h1, h2, h3, h4, h5⟩ := runSimulation_ok h
  have hst := (setup_start h1).1
  obtain ⟨l, hl, hs⟩ := init_numbers hst.init
  rw [hst.ms, hst.data, hud] at hl
  have hl : checkNumberOfObservations ud (countsOf o.data) = .ok l := hl
  have hc : (countsOf o.data : List F) = [ofInt k] := by simp [countsOf, hk]
  unfold checkNumberOfObservations at hl
  rw [hc, if_neg (by rw [arrayEqual_iff]; rintro ⟨e, _⟩; simp at e; omega),
    if_neg (by simp; omega), if_pos ⟨by simpa using hlen, rfl⟩] at hl
  dsimp only at hl
  split at hl
  · have := (Except.ok.inj hl)
    subst this
    rw [h4]
    unfold checkSizeOfObservations at hs
    split at hs
    · simp at hlen
    · rw [if_neg (by omega), if_pos ⟨rfl, hlen⟩] at hs
      exact (Except.ok.inj hs).symm
  · cases hl

end general

namespace Toy

/-- an object with the given numbers of observations, for one sum of squares and five observations -/
def numbersObj (ud : List ℚ) : Obj ℚ Toy.flags 1 :=
  newObj specs { opts .mh 4 with updatesigma := true } extra
    (defineModelSettings none (some ud) none none none) data

end Toy

/-- seven observations are claimed, the data have five -/
example : runSimulation Toy.user Toy.rng Toy.lapack 100 (Toy.numbersObj [7]) 0 false =
    .error (.sysExit msgN) :=
  C158_refused (ud := [7]) rfl rfl (by
    rintro (⟨_, h⟩ | ⟨u, _, h, _⟩ | ⟨d, _, h, _⟩)
    · exact absurd (h 0 7 5 rfl (by decide +kernel)) (by decide +kernel)
    · exact absurd h (by decide +kernel)
    · simp at h)

/-- the number of the data is accepted -/
example : ∃ out, runSimulation Toy.user Toy.rng Toy.lapack 100 (Toy.numbersObj [5]) 0 false = .ok out ∧
    NAgrees ([5] : List ℚ) (countsOf (Toy.numbersObj [5]).data) ∧
    out.init.errModel.N[0]? = some 5 := by
  obtain ⟨out, h⟩ := exists_ok
    (x := runSimulation Toy.user Toy.rng Toy.lapack 100 (Toy.numbersObj [5]) 0 false) (by decide +kernel)
  exact ⟨out, h, C158_agrees h rfl,
    (C158_used_partial (fun x => by simp [lit]) (fun x y e => of_decide_eq_true e) h
      (fun _ ud e => by cases e; exact le_rfl)).1 5 (by decide +kernel) 0 (by decide)⟩

/-- two data sets of five and four observations, two sums of squares -/
example : ∃ out, Toy.sigmaRun none (some [3]) (some [2, 1]) = .ok out ∧
    out.init.errModel.N[0]? = some 5 ∧ out.init.errModel.N[1]? = some 4 := by
  obtain ⟨out, h⟩ := exists_ok (x := Toy.sigmaRun none (some [3]) (some [2, 1])) (by decide +kernel)
  have := (C158_used_partial (fun x => by simp [lit]) (fun x y e => of_decide_eq_true e) h
    (fun hm => absurd hm (by decide))).2.2 (by decide) (by decide +kernel)
  exact ⟨out, h, this.2 0 5 (by decide) (by decide +kernel), this.2 1 4 (by decide) (by decide +kernel)⟩

/-- five observations, given as `[5, 5]`, count as ten -/
example : ∃ out, runSimulation Toy.user Toy.rng Toy.lapack 100 (Toy.numbersObj [5, 5]) 0 false = .ok out ∧
    (Toy.numbersObj [5, 5]).data.n = [5] ∧ out.init.errModel.N = [10] := by
  obtain ⟨out, h⟩ := exists_ok
    (x := runSimulation Toy.user Toy.rng Toy.lapack 100 (Toy.numbersObj [5, 5]) 0 false) (by decide +kernel)
  refine ⟨out, h, by decide +kernel, ?_⟩
  rw [C158_repeated_refuted (ud := [5, 5]) h rfl (by decide) (k := 5) (by decide +kernel)]
  decide +kernel

end Verif
