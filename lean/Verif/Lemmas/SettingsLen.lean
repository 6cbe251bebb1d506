import Verif.Lemmas.SigmaDraws

/-! # The error-variance settings after the checks of the set-up -/

set_option linter.unusedSectionVars false

namespace Verif
variable {F σ : Type} [PyFloat F] {N m : ℕ} {flags : Fin N → Bool}

/-- The vector `v` with one entry per sum-of-squares element is what the user's list `l` stands for:
a single number repeated, or the list itself. -/
def Spread (l : List F) (v : Vec F m) : Prop :=
  (∃ x, l = [x] ∧ ∀ j, v j = lit 1 * x) ∨ (l.length = m ∧ ∀ j : Fin m, l[(j : ℕ)]? = some (v j))

theorem checkSizeOfSetting_ok {x y : List F} {b : Bool} (h : checkSizeOfSetting x m = .ok (y, b)) :
    (b = true ∧ ∃ a, x = [a] ∧ y = List.replicate m (lit 1 * a)) ∨
    (b = false ∧ x.length ≠ 1 ∧ y = x ∧ x.length = m) := by
  unfold checkSizeOfSetting at h
  split at h
  · cases h; exact .inl ⟨rfl, _, rfl, rfl⟩
  · rename_i x hx
    split at h
    · cases h
    · split at h
      · cases h
      · cases h
        refine .inr ⟨rfl, fun hl => ?_, rfl, by omega⟩
        obtain ⟨a, ha⟩ := List.length_eq_one_iff.1 hl
        exact hx a ha

theorem checkSizeOfSetting_length {x y : List F} {b : Bool}
    (h : checkSizeOfSetting x m = .ok (y, b)) : y.length = m := by
  rcases checkSizeOfSetting_ok h with ⟨_, a, _, rfl⟩ | ⟨_, _, rfl, h⟩
  · simp
  · exact h

theorem checkSizeOfSetting_spread {x y : List F} {b : Bool}
    (h : checkSizeOfSetting x m = .ok (y, b)) {v : Vec F m}
    (hv : ∀ j : Fin m, y[(j : ℕ)]? = some (v j)) : Spread x v := by
  rcases checkSizeOfSetting_ok h with ⟨_, a, rfl, rfl⟩ | ⟨_, _, rfl, h⟩
  · refine .inl ⟨a, rfl, fun j => ?_⟩
    have := hv j
    rw [List.getElem?_replicate, if_pos j.2] at this
    exact (Option.some.inj this).symm
  · exact .inr ⟨h, hv⟩

theorem checkDependent_ok {s s' : ModelSettings F} {dataN : List ℕ} {b : ℕ}
    (h : checkDependentModelSettings s dataN b = .ok s') :
    s'.sigma2 = some ((defaultN0 s.sigma2 s.N0).1.getD (List.replicate (s.nbatch.getD b) (lit 1))) ∧
    s'.N0 = some (defaultN0 s.sigma2 s.N0).2 ∧
    s'.S20 = s.S20 ∧ s'.N.isSome ∧
    (s.s20Alias = false → s'.s20Alias = s.S20.any PyFloat.isnan) := by
  unfold checkDependentModelSettings at h
  obtain ⟨Nl, h1, h⟩ := bind_ok.1 h
  cases hd : defaultN0 s.sigma2 s.N0 with
  | mk sg n0 =>
    rw [hd] at h
    dsimp only at h
    have h := (Except.ok.inj h).symm
    rw [h]
    refine ⟨by split <;> rfl, by split <;> rfl, by split <;> rfl, by split <;> rfl, fun ha => ?_⟩
    unfold ModelSettings.s20Now
    dsimp only
    rw [ha]
    simp only [Bool.false_eq_true, if_false]
    split
    · rename_i h; rw [h]
    · rename_i h; rw [Bool.not_eq_true] at h; rw [h]

theorem checkWrtNsos_ok {s s' : ModelSettings F} (h : checkWrtNsos s m = .ok s') :
    ∃ S20 f1 n0 N0 f2 sg sigma2 f3 N1 N2, checkSizeOfSetting s.s20Now m = .ok (S20, f1) ∧
      s.N0 = some n0 ∧ checkSizeOfSetting n0 m = .ok (N0, f2) ∧
      s.sigma2 = some sg ∧ checkSizeOfSetting sg m = .ok (sigma2, f3) ∧
      s.N = some N1 ∧ checkSizeOfObservations N1 m = .ok N2 ∧
      s' = { s with S20 := S20, N0 := some N0, sigma2 := some sigma2, N := some N2
                    s20Alias := s.s20Alias && !f1 && !f3 } := by
  unfold checkWrtNsos at h
  obtain ⟨⟨S20, f1⟩, h1, h⟩ := bind_ok.1 h
  obtain ⟨n0, h2, h⟩ := bind_ok.1 h
  obtain ⟨⟨N0, f2⟩, h3, h⟩ := bind_ok.1 h
  obtain ⟨sg, h4, h⟩ := bind_ok.1 h
  obtain ⟨⟨sigma2, f3⟩, h5, h⟩ := bind_ok.1 h
  obtain ⟨N1, h6, h⟩ := bind_ok.1 h
  obtain ⟨N2, h7, h⟩ := bind_ok.1 h
  exact ⟨S20, f1, n0, N0, f2, sg, sigma2, f3, N1, N2, h1, orRaise_ok.1 h2, h3, orRaise_ok.1 h4, h5,
    orRaise_ok.1 h6, h7, (Except.ok.inj h).symm⟩

theorem toErrModel_ok {s : ModelSettings F} {M : ErrModel F m} (h : toErrModel s m = .ok M) :
    ∃ s2 n0 N, s.sigma2 = some s2 ∧ s.N0 = some n0 ∧ s.N = some N ∧ M.N = N ∧
      (∀ j : Fin m, s2[(j : ℕ)]? = some (M.sigma2 j)) ∧
      (∀ j : Fin m, n0[(j : ℕ)]? = some (M.N0 j)) ∧
      (s.s20Alias = true → M.S20 = .aliasSigma2) ∧
      (s.s20Alias = false → ∃ v, M.S20 = .own v ∧ ∀ j : Fin m, s.S20[(j : ℕ)]? = some (v j)) := by
  unfold toErrModel at h
  split at h
  · rename_i s2 n0 N e1 e2 e3
    split at h
    · rename_i hl
      have h := (Except.ok.inj h).symm
      rw [h]
      refine ⟨_, _, _, e1, e2, e3, rfl, fun j => ?_, fun j => ?_, fun ha => ?_, fun ha => ?_⟩
      · simp [hl.1]
      · simp [hl.2.1]
      · simp [ha]
      · refine ⟨fun i => s.S20.get (i.cast hl.2.2.symm), by simp [ha], fun j => ?_⟩
        simp [hl.2.2]
    · cases h
  · cases h

/-- What the initial error-variance settings of a run come from. -/
theorem settings_ok {s s1 s2 : ModelSettings F} {dataN : List ℕ} {b : ℕ} {M : ErrModel F m}
    (ha : s.s20Alias = false) (h1 : checkDependentModelSettings s dataN b = .ok s1)
    (h2 : checkWrtNsos s1 m = .ok s2) (h3 : toErrModel s2 m = .ok M) :
    Spread ((defaultN0 s.sigma2 s.N0).1.getD (List.replicate (s.nbatch.getD b) (lit 1))) M.sigma2 ∧
    Spread (defaultN0 s.sigma2 s.N0).2 M.N0 ∧
    (s.S20.any PyFloat.isnan = false → ∃ v, M.S20 = .own v ∧ Spread s.S20 v) ∧
    (s.S20.any PyFloat.isnan = true →
      let l := (defaultN0 s.sigma2 s.N0).1.getD (List.replicate (s.nbatch.getD b) (lit 1))
      (l.length = 1 → M.S20 = .own M.sigma2) ∧ (l.length ≠ 1 → M.S20 = .aliasSigma2)) := by
  obtain ⟨a1, a2, a3, a4, a5⟩ := checkDependent_ok h1
  obtain ⟨S20, f1, n0, N0, f2, sg, sigma2, f3, N1, N2, b1, b2, b3, b4, b5, b6, b7, rfl⟩ :=
    checkWrtNsos_ok h2
  obtain ⟨t2, t0, tN, c1, c2, c3, c4, c5, c6, c7, c8⟩ := toErrModel_ok h3
  cases c1; cases c2; cases c3
  rw [a1] at b4; cases b4
  rw [a2] at b2; cases b2
  have a5 := a5 ha
  refine ⟨checkSizeOfSetting_spread b5 c5, checkSizeOfSetting_spread b3 c6, fun hn => ?_, fun hn => ?_⟩
  · rw [hn] at a5
    obtain ⟨v, d1, d2⟩ := c8 (by simp [a5])
    refine ⟨v, d1, ?_⟩
    have e : s1.s20Now = s.S20 := by unfold ModelSettings.s20Now; rw [a5]; simpa using a3
    rw [e] at b1
    exact checkSizeOfSetting_spread b1 d2
  · rw [hn] at a5
    have e : s1.s20Now = (defaultN0 s.sigma2 s.N0).1.getD (List.replicate (s.nbatch.getD b) (lit 1)) := by
      unfold ModelSettings.s20Now; rw [a5, a1]; rfl
    rw [e] at b1
    rw [b1] at b5
    obtain ⟨e1, e2⟩ := Prod.mk.inj (Except.ok.inj b5)
    subst e1 e2
    dsimp only
    refine ⟨fun hl => ?_, fun hl => ?_⟩
    · rcases checkSizeOfSetting_ok b1 with ⟨hb, _⟩ | ⟨_, hne, _⟩
      · obtain ⟨v, d1, d2⟩ := c8 (by simp [hb])
        rw [d1]
        congr 1
        funext j
        exact Option.some.inj ((d2 j).symm.trans (c5 j))
      · exact absurd hl hne
    · rcases checkSizeOfSetting_ok b1 with ⟨_, a, ha', _⟩ | ⟨hb, _⟩
      · rw [ha'] at hl; exact absurd rfl hl
      · exact c7 (by simp [hb, a5])

end Verif
