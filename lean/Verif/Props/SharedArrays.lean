import Verif.Lemmas.SharedAgree

/-! # C121, C122, C123: the arrays of the settings -/

set_option linter.unusedSectionVars false

namespace Verif
variable {F σ : Type} [PyFloat F] {N m : ℕ} {flags : Fin N → Bool}

/-- the numbers of an argument -/
def argVals (st : Heap F) : SettingArg F → Option (List F)
  | .int k => some [ofInt k]
  | .float x => some [x]
  | .list l => some (l.map (Sum.elim ofInt id))
  | .array a => some (st.vals a)
  | .none | .other => none

/-- whether the argument is an integer, a non-empty list of integers or an array of integers -/
def argInts (st : Heap F) : SettingArg F → Bool
  | .int _ => true
  | .list l => !l.isEmpty && l.all Sum.isLeft
  | .array a => (st[a]?.map NArr.ints).getD false
  | .float _ | .none | .other => false

/-- The arrays among the arguments exist, and the one of `sigma2` is passed for nothing else. -/
structure PassedApart (st : Heap F) (sigma2 N N0 S20 : SettingArg F) : Prop where
  there : ∀ a, sigma2 = .array a ∨ N = .array a ∨ N0 = .array a ∨ S20 = .array a → a < st.length
  apart : ∀ a, sigma2 = .array a → N ≠ .array a ∧ N0 ≠ .array a ∧ S20 ≠ .array a

theorem arrayType_vals {st st' : Heap F} {x : SettingArg F} {a : Option ℕ}
    (h : arrayType st x = .ok (st', a)) (hx : ∀ b, x = .array b → b < st.length) :
    st <+: st' ∧ a.map st'.vals = argVals st x ∧
    (∀ b, a = some b → b < st'.length ∧ (x = .array b ∨ (st.length ≤ b ∧ ∀ c, x ≠ .array c)) ∧
      st'[b]?.map NArr.ints = some (argInts st x)) := by
  cases x <;> simp only [arrayType, alloc_eq] at h <;> cases h
  · exact ⟨List.prefix_rfl, rfl, by simp⟩
  · refine ⟨List.prefix_append _ _, by simp [argVals, vals_alloc], ?_⟩
    intro b hb; cases hb; simp [argInts]
  · refine ⟨List.prefix_append _ _, by simp [argVals, vals_alloc], ?_⟩
    intro b hb; cases hb; simp [argInts]
  · refine ⟨List.prefix_append _ _, by simp [argVals, vals_alloc, npArray], ?_⟩
    intro b hb; cases hb; simp [argInts, npArray]
  · rename_i a
    refine ⟨List.prefix_rfl, rfl, ?_⟩
    intro b hb; cases hb
    have := hx a rfl
    refine ⟨this, .inl rfl, ?_⟩
    simp [argInts, this]

theorem argVals_prefix {st st' : Heap F} {x : SettingArg F} (p : st <+: st')
    (hx : ∀ b, x = .array b → b < st.length) : argVals st' x = argVals st x ∧ argInts st' x = argInts st x := by
  cases x with
  | array a =>
    simp only [argVals, argInts]
    rw [vals_prefix p (hx a rfl), getElem?_prefix p (hx a rfl)]
    exact ⟨rfl, rfl⟩
  | _ => exact ⟨rfl, rfl⟩

/-- what `define_model_settings` leaves -/
theorem shareSettings_ok {st st' : Heap F} {sigma2 Na N0 S20 : SettingArg F} {nb : Option ℕ} {s : SharedSettings}
    (h : shareSettings st sigma2 Na N0 nb S20 = .ok (st', s))
    (ht : ∀ a, sigma2 = .array a ∨ Na = .array a ∨ N0 = .array a ∨ S20 = .array a → a < st.length) :
    st <+: st' ∧ s.nbatch = nb ∧
    s.sigma2.map st'.vals = argVals st sigma2 ∧ s.N.map st'.vals = argVals st Na ∧
    s.N0.map st'.vals = argVals st N0 ∧ some (st'.vals s.S20) = argVals st S20 ∧
    (∀ a, s.sigma2 = some a ∨ s.N = some a ∨ s.N0 = some a → a < st'.length) ∧ s.S20 < st'.length ∧
    (∀ a, s.sigma2 = some a → (sigma2 = .array a ∨ (st.length ≤ a ∧ ∀ c, sigma2 ≠ .array c)) ∧
      st'[a]?.map NArr.ints = some (argInts st sigma2) ∧
      (s.N = some a → Na = .array a) ∧ (s.N0 = some a → N0 = .array a) ∧ (s.S20 = a → S20 = .array a)) := by
  unfold shareSettings at h
  obtain ⟨⟨t1, a1⟩, h1, h⟩ := bind_ok.1 h
  obtain ⟨⟨t2, a2⟩, h2, h⟩ := bind_ok.1 h
  obtain ⟨⟨t3, a3⟩, h3, h⟩ := bind_ok.1 h
  obtain ⟨⟨t4, a4⟩, h4, h⟩ := bind_ok.1 h
  obtain ⟨b4, h5, h⟩ := bind_ok.1 h
  cases h
  rw [orRaise_ok] at h5
  subst h5
  obtain ⟨p1, u1, k1⟩ := arrayType_vals h1 fun b hb => ht b (.inl hb)
  have l1 := p1.length_le
  have ht2 : ∀ b, Na = .array b → b < st.length := fun b hb => ht b (.inr (.inl hb))
  have ht3 : ∀ b, N0 = .array b → b < st.length := fun b hb => ht b (.inr (.inr (.inl hb)))
  have ht4 : ∀ b, S20 = .array b → b < st.length := fun b hb => ht b (.inr (.inr (.inr hb)))
  obtain ⟨p2, u2, k2⟩ := arrayType_vals h2 fun b hb => (ht2 b hb).trans_le l1
  have l2 := p2.length_le
  obtain ⟨p3, u3, k3⟩ := arrayType_vals h3 fun b hb => (ht3 b hb).trans_le (l1.trans l2)
  have l3 := p3.length_le
  obtain ⟨p4, u4, k4⟩ := arrayType_vals h4 fun b hb => (ht4 b hb).trans_le (l1.trans (l2.trans l3))
  have l4 := p4.length_le
  rw [(argVals_prefix p1 ht2).1] at u2
  rw [(argVals_prefix (p1.trans p2) ht3).1] at u3
  rw [(argVals_prefix (p1.trans (p2.trans p3)) ht4).1] at u4
  have hmap : ∀ {t t' : Heap F} {x : Option ℕ}, t <+: t' → (∀ b, x = some b → b < t.length) →
      x.map t'.vals = x.map t.vals := by
    intro t t' x p hx
    cases x with
    | none => rfl
    | some b => simp [vals_prefix p (hx b rfl)]
  refine ⟨p1.trans (p2.trans (p3.trans p4)), rfl, ?_, ?_, ?_, ?_, ?_, (k4 _ rfl).1, ?_⟩
  · rw [← u1]; exact hmap (p2.trans (p3.trans p4)) fun b hb => (k1 b hb).1
  · rw [← u2]; exact hmap (p3.trans p4) fun b hb => (k2 b hb).1
  · rw [← u3]; exact hmap p4 fun b hb => (k3 b hb).1
  · rw [← u4]; rfl
  · rintro a (e | e | e)
    · have := (k1 a e).1; omega
    · have := (k2 a e).1; omega
    · have := (k3 a e).1; omega
  · intro a e
    obtain ⟨q1, q2, q3⟩ := k1 a e
    refine ⟨q2, ?_, fun e' => ?_, fun e' => ?_, fun e' => ?_⟩
    · rw [getElem?_prefix (p2.trans (p3.trans p4)) q1]; exact q3
    · rcases (k2 a e').2.1 with h | ⟨h, -⟩
      · exact h
      · omega
    · rcases (k3 a e').2.1 with h | ⟨h, -⟩
      · exact h
      · omega
    · rcases (k4 a (by rw [← e'])).2.1 with h | ⟨h, -⟩
      · exact h
      · omega

/-- The settings object shows what `defineModelSettings` of the model on values has. -/
theorem shareSettings_shows {st st' : Heap F} {sigma2 Na N0 S20 : SettingArg F} {nb : Option ℕ} {s : SharedSettings}
    (h : shareSettings st sigma2 Na N0 nb S20 = .ok (st', s)) (ha : PassedApart st sigma2 Na N0 S20)
    (hi : argInts st sigma2 = false ∨ ∃ x, argVals st sigma2 = some [x]) :
    ShowsSettings st' s (defineModelSettings (argVals st sigma2) (argVals st Na) (argVals st N0) nb (argVals st S20)) := by
  obtain ⟨p, e1, e2, e3, e4, e5, e6, e7, e8⟩ := shareSettings_ok h ha.there
  refine ⟨e2, e3, e4, e1, ?_, ?_, ⟨e6, e7⟩, ?_, ?_⟩
  · unfold ModelSettings.s20Now defineModelSettings
    simp [← e5]
  · unfold defineModelSettings
    simp only [Bool.false_eq_true, false_iff]
    intro hs
    obtain ⟨q1, -, -, -, q5⟩ := e8 _ hs
    have hS := q5 rfl
    rcases q1 with q1 | ⟨q1, -⟩
    · exact (ha.apart _ q1).2.2 hS
    · have := ha.there _ (.inr (.inr (.inr hS))); omega
  · intro a hs
    obtain ⟨q1, -, q3, q4, -⟩ := e8 _ hs
    refine ⟨fun h => ?_, fun h => ?_⟩
    · rcases q1 with q1 | ⟨q1, -⟩
      · exact (ha.apart _ q1).1 (q3 h)
      · have := ha.there _ (.inr (.inl (q3 h))); omega
    · rcases q1 with q1 | ⟨q1, -⟩
      · exact (ha.apart _ q1).2.1 (q4 h)
      · have := ha.there _ (.inr (.inr (.inl (q4 h)))); omega
  · intro a arr hs harr
    obtain ⟨-, q2, -⟩ := e8 _ hs
    rw [harr] at q2
    rcases hi with hi | ⟨x, hx⟩
    · rw [hi] at q2; exact .inl (Option.some.inj q2)
    · rw [hs, Option.map_some, hx] at e2
      right
      have : arr.vals = st'.vals a := by rw [Heap.vals, harr]; rfl
      rw [this, Option.some.inj e2]; rfl

/-! ### C121 -/

theorem shareRun_length {toInt : F → Except PyErr ℤ} {G : Rng σ F} {fuel : ℕ} {n : List ℕ} {b : ℕ}
    {s s' : SharedSettings} {calls : List (Vec F m × σ)} {st st' : Heap F}
    (h : shareRun toInt G fuel n b s calls st = .ok (st', s')) : st.length ≤ st'.length ∧
    ∃ a, s'.sigma2 = some a ∧ (st.length ≤ a ∨ s.sigma2 = some a) := by
  obtain ⟨st1, s1, st2, h1, h2, h3⟩ := shareRun_ok h
  obtain ⟨p, a, ha, ha'⟩ := share_setup h1 h2
  obtain ⟨e, -⟩ := shareUpdates_frame ha h3
  refine ⟨by rw [e]; exact p.length_le, a, ha, ?_⟩
  rcases ha' with h | ⟨h, -⟩
  · exact .inl h
  · exact .inr h

theorem shareSession_frame {toInt : F → Except PyErr ℤ} {G : Rng σ F} {fuel : ℕ} {c : ℕ} :
    ∀ {runs : List (SharedRun F σ m)} {st st' : Heap F} {s s' : SharedSettings},
    shareSession toInt G fuel runs st s = .ok (st', s') → c < st.length →
    ¬ (s.sigma2 = some c ∧ (st.vals c).length = m ∧ m ≠ 1 ∧ ∃ r ∈ runs, r.calls ≠ []) → st'[c]? = st[c]?
  | [], st, st', s, s', h, _, _ => by cases h; rfl
  | r :: runs, st, st', s, s', h, hc, hn => by
    unfold shareSession at h
    rw [List.foldlM_cons] at h
    obtain ⟨⟨st1, s1⟩, h1, h⟩ := bind_ok.1 h
    have e1 : st1[c]? = st[c]? := shareRun_frame h1 hc fun ⟨a, b, d, e⟩ => hn ⟨a, b, d, r, by simp, e⟩
    obtain ⟨hl, a, ha, ha'⟩ := shareRun_length h1
    have e2 : st'[c]? = st1[c]? := shareSession_frame h (hc.trans_le hl) fun ⟨b1, b2, b3, r', b4, b5⟩ => by
      rw [ha] at b1; cases b1
      rcases ha' with ha' | ha'
      · dsimp only at ha'; omega
      · refine hn ⟨ha', ?_, b3, r', List.mem_cons_of_mem _ b4, b5⟩
        unfold Heap.vals at b2 ⊢
        rw [← e1]; exact b2
    rw [e2, e1]

/-- **C121 (partial).** After `define_model_settings` and any number of runs of the object, every array that existed
before has the entries and the number type it had — whatever was passed as `sigma2`, `N`, `N0` and `S20`, and whatever
other object uses the array.

Missing from the full statement: an array passed as `sigma2` with one entry for each of two or more sums of squares,
when a run samples the error variance; it is overwritten, see `C121_overwritten` and `C121_refuted`. -/
theorem C121_unchanged_partial {toInt : F → Except PyErr ℤ} {G : Rng σ F} {fuel : ℕ} {st st1 st2 : Heap F}
    {sigma2 Na N0 S20 : SettingArg F} {nb : Option ℕ} {s1 s2 : SharedSettings} {runs : List (SharedRun F σ m)}
    (h1 : shareSettings st sigma2 Na N0 nb S20 = .ok (st1, s1))
    (h2 : shareSession toInt G fuel runs st1 s1 = .ok (st2, s2))
    (ht : ∀ a, sigma2 = .array a ∨ Na = .array a ∨ N0 = .array a ∨ S20 = .array a → a < st.length)
    {c : ℕ} (hc : c < st.length)
    (hn : ¬ (sigma2 = .array c ∧ (st.vals c).length = m ∧ m ≠ 1 ∧ ∃ r ∈ runs, r.calls ≠ [])) :
    st2[c]? = st[c]? := by
  obtain ⟨p, -, -, -, -, -, -, -, e8⟩ := shareSettings_ok h1 ht
  rw [← getElem?_prefix p hc]
  refine shareSession_frame h2 (hc.trans_le p.length_le) fun ⟨a1, a2, a3, a4⟩ => ?_
  rcases (e8 c a1).1 with q | ⟨q, -⟩
  · exact hn ⟨q, by rw [vals_prefix p hc] at a2; exact a2, a3, a4⟩
  · omega

/-- **C121, what happens instead.** For every completed run from scratch that samples the error variance, when an array
of floats with one entry for each of two or more sums of squares was passed as `sigma2`, that array has the last row of
the error-variance chain afterwards. -/
theorem C121_overwritten (toInt : F → Except PyErr ℤ) {U : UserFuns F N (nS flags) m} {o : Obj F flags m} {G : Rng σ F}
    {L : Lapack F} {fuel : ℕ} {rng : σ} {out : RunOut F σ flags m} {st st1 : Heap F} {Na N0 S20 : SettingArg F}
    {nb : Option ℕ} {s1 : SharedSettings} {c : ℕ}
    (h : runSimulation U G L fuel o rng false = .ok out) (hu : o.ms.N0.isSome ∨ o.opts.updatesigma = true)
    (h1 : shareSettings st (.array c) Na N0 nb S20 = .ok (st1, s1)) (ha : PassedApart st (.array c) Na N0 S20)
    (hms : o.ms = defineModelSettings (some (st.vals c)) (argVals st Na) (argVals st N0) nb (argVals st S20))
    (hi : argInts st (.array c) = false) (hl : 2 ≤ (st.vals c).length) :
    ∃ calls st2 s2 ch row, shareRun toInt G fuel o.data.n o.data.nbatch s1 calls st1 = .ok (st2, s2) ∧
      calls.map Prod.fst = out.results.sschain.tail ∧
      out.results.s2chain = some ch ∧ ch.getLast? = some row ∧ st2.vals c = List.ofFn row := by
  have H := shareSettings_shows h1 ha (.inl hi)
  rw [show argVals st (.array c) = some (st.vals c) from rfl, ← hms] at H
  obtain ⟨calls, st2, s2, ch, row, a, e1, -, e3, e4, e5, e6, e7, -⟩ := run_shared toInt h hu H
  obtain ⟨p, -, -, -, -, -, -, -, e8⟩ := shareSettings_ok h1 ha.there
  have hc : c < st.length := ha.there c (.inl rfl)
  have hs : s1.sigma2 = some c := by
    have := H.sigma2
    rw [hms] at this
    obtain ⟨a', e9, -⟩ := Option.map_eq_some_iff.1 this
    rcases (e8 a' e9).1 with h | ⟨-, h⟩
    · cases h; exact e9
    · exact absurd rfl (h c)
  have := shareRun_keeps e1 (hc.trans_le p.length_le) hs (by rw [vals_prefix p hc]; omega)
  rw [e6] at this; cases this
  exact ⟨calls, st2, s2, ch, row, e1, e3, e4, e5, e7⟩

namespace Toy

/-- `int()` of a number that is neither NaN nor infinite -/
def toInt (x : ℚ) : Except PyErr ℤ := .ok (if 0 ≤ x then ⌊x⌋ else ⌈x⌉)

/-- two arrays of the user: initial error variances and prior scales -/
def arrays : Heap ℚ := [⟨false, [1, 1]⟩, ⟨false, [2, 1]⟩]

theorem arrays_apart : PassedApart arrays (.array 0) .none (.int 3) (.array 1) :=
  ⟨by rintro a (h | h | h | h) <;> cases h <;> decide, by rintro a h; cases h; exact ⟨nofun, nofun, nofun⟩⟩

/-- the settings object for `sigma2=` the first array, `N0=3` and `S20=` the second array -/
def shared : Heap ℚ × SharedSettings :=
  ([⟨false, [1, 1]⟩, ⟨false, [2, 1]⟩, ⟨true, [3]⟩], ⟨some 0, none, some 2, none, 1⟩)

theorem shared_eq : shareSettings arrays (.array 0) .none (.int 3) none (.array 1) = .ok shared := by decide +kernel

end Toy

/-- **C121, refuted.** There is a completed run after which the array passed as `sigma2` is not what it was. -/
theorem C121_refuted : ∃ (out : RunOut ℚ ℕ Toy.flags 2) (calls : List (Vec ℚ 2 × ℕ)) (st2 : Heap ℚ)
    (s2 : SharedSettings), Toy.sigmaRun (some [1, 1]) (some [3]) (some [2, 1]) = .ok out ∧
    shareRun Toy.toInt Toy.rng 100 Toy.data2.n Toy.data2.nbatch Toy.shared.2 calls Toy.shared.1 = .ok (st2, s2) ∧
    calls.map Prod.fst = out.results.sschain.tail ∧ Toy.arrays.vals 0 = [1, 1] ∧ st2.vals 0 ≠ [1, 1] := by
  obtain ⟨out, h, hx⟩ := exists_ok_and (x := Toy.sigmaRun (some [1, 1]) (some [3]) (some [2, 1]))
    (fun out => (out.results.s2chain.bind fun c => c.getLast?.map fun r => decide (r 0 ≠ 1)) == some true)
    (by decide +kernel)
  obtain ⟨calls, st2, s2, ch, row, e1, e2, e3, e4, e5⟩ := C121_overwritten Toy.toInt h (.inr rfl) Toy.shared_eq
    Toy.arrays_apart rfl (by decide +kernel) (by decide +kernel)
  refine ⟨out, calls, st2, s2, h, e1, e2, by decide +kernel, ?_⟩
  rw [e3] at hx
  simp only [Option.bind_some, e4, Option.map_some] at hx
  rw [e5]
  intro he
  have h0 : row 0 = 1 := by
    have := congrArg (·[0]?) he
    simpa using this
  rw [h0] at hx
  exact absurd hx (by decide)

/-- the second array of the user is unchanged after two runs, and the first too if no run samples -/
example : ∃ st2 s2, shareSession Toy.toInt Toy.rng 100
      [⟨[5, 4], 2, [(![1, 2], 0), (![2, 2], 3)]⟩, ⟨[5, 4], 2, [(![3, 2], 0)]⟩] Toy.shared.1 Toy.shared.2 = .ok (st2, s2) ∧
    st2[1]? = some ⟨false, [2, 1]⟩ := by
  obtain ⟨⟨st2, s2⟩, h⟩ := exists_ok (x := shareSession Toy.toInt Toy.rng 100
    [⟨[5, 4], 2, [(![1, 2], 0), (![2, 2], 3)]⟩, ⟨[5, 4], 2, [(![3, 2], 0)]⟩] Toy.shared.1 Toy.shared.2) (by decide +kernel)
  exact ⟨st2, s2, h, C121_unchanged_partial Toy.shared_eq h Toy.arrays_apart.there (by decide) (by simp)⟩

/-! ### C122 -/

theorem shareRun_last {toInt : F → Except PyErr ℤ} {G : Rng σ F} {fuel : ℕ} {n : List ℕ} {b : ℕ}
    {s s' : SharedSettings} {calls : List (Vec F m × σ)} {c : Vec F m × σ} {st st' : Heap F}
    (h : shareRun toInt G fuel n b s (calls ++ [c]) st = .ok (st', s')) :
    ∃ st1 r', shareRun toInt G fuel n b s calls st = .ok (st1, s') ∧
      shareUpdate toInt G fuel s' c.1 st1 c.2 = .ok (st', r') := by
  unfold shareRun at h ⊢
  obtain ⟨⟨t1, s1⟩, h1, h⟩ := bind_ok.1 h
  obtain ⟨⟨t2, s2⟩, h2, h⟩ := bind_ok.1 h
  obtain ⟨t3, h3, h⟩ := bind_ok.1 h
  cases h
  unfold shareUpdates at h3
  rw [List.foldlM_append] at h3
  obtain ⟨t4, h4, h5⟩ := bind_ok.1 h3
  rw [List.foldlM_cons] at h5
  obtain ⟨t5, h6, h5⟩ := bind_ok.1 h5
  cases h5
  cases hu : shareUpdate toInt G fuel s' c.1 t4 c.2 with
  | error e => rw [hu] at h6; cases h6
  | ok p =>
    rw [hu] at h6
    cases h6
    refine ⟨t4, p.2, ?_, hu⟩
    rw [h1, ok_bind]
    dsimp only at h2 ⊢
    rw [h2, ok_bind]
    unfold shareUpdates
    dsimp only at h4 ⊢
    rw [h4, ok_bind]

theorem shareDependent_type {st st' : Heap F} {s s' : SharedSettings} {n : List ℕ} {b : ℕ}
    (h : shareDependent st s n b = .ok (st', s')) (hs : s.sigma2 = none) :
    ∃ a, s'.sigma2 = some a ∧ a < st'.length ∧ st'[a]?.map NArr.ints = some false := by
  unfold shareDependent at h
  obtain ⟨aN, -, h⟩ := bind_ok.1 h
  have h := (Except.ok.inj h).symm
  rw [(Prod.mk.inj h).1, (Prod.mk.inj h).2, hs]
  refine ⟨_, rfl, ?_⟩
  cases s.N0 <;> simp [shareDefaults, shareSigma2, alloc_eq]

/-- number type and length of the array of `sigma2` after some updates -/
theorem shareRun_type {toInt : F → Except PyErr ℤ} {G : Rng σ F} {fuel : ℕ} {n : List ℕ} {b : ℕ}
    {s s' : SharedSettings} {calls : List (Vec F m × σ)} {st st' : Heap F} {ints : Bool}
    (h : shareRun toInt G fuel n b s calls st = .ok (st', s'))
    (ht : ∀ a, s.sigma2 = some a → a < st.length ∧ st[a]?.map NArr.ints = some ints) :
    ∃ a arr, s'.sigma2 = some a ∧ st'[a]? = some arr ∧ arr.vals.length = m ∧
      arr.ints = (ints && s.sigma2.any fun a => (st.vals a).length != 1) := by
  obtain ⟨st1, s1, st2, h1, h2, h3⟩ := shareRun_ok h
  obtain ⟨p1, a, ha, ha'⟩ := shareDependent_ok h1
  obtain ⟨t1, t2, t3, b0, a', bN, S20, N0, sg, Nn, q1, -, q2, q3, q4, -, q5, rfl⟩ := shareWrtNsos_ok h2
  rw [ha] at q3
  cases q3
  have pp := (shareSize_prefix q1).trans (shareSize_prefix q2)
  have p5 := shareSizeN_prefix q5
  -- the array when the updates begin
  obtain ⟨arr, k1, k2, k3⟩ : ∃ arr, st2[sg]? = some arr ∧ arr.vals.length = m ∧
      arr.ints = (ints && s.sigma2.any fun a => (st.vals a).length != 1) := by
    have hst1 : a < st1.length := by
      rcases ha' with h0 | ⟨h0, -⟩
      · exact (ht _ h0).1.trans_le p1.length_le
      · obtain ⟨a2, e1, e2, -⟩ := shareDependent_type h1 h0
        rw [ha] at e1; cases e1; exact e2
    have hi1 : st1[a]?.map NArr.ints = some (ints && s.sigma2.isSome) := by
      rcases ha' with h0 | ⟨h0, -⟩
      · rw [getElem?_prefix p1 (ht _ h0).1, (ht _ h0).2, h0]; simp
      · obtain ⟨a2, e1, -, e2⟩ := shareDependent_type h1 h0
        rw [ha] at e1; cases e1
        rw [e2, h0]; simp
    rcases shareSize_ok q4 with ⟨e1, e2, e3⟩ | ⟨e1, e2, e3, e4⟩
    · have hlt : sg < t3.length := by rw [e2, e3]; simp
      refine ⟨⟨false, List.replicate m (lit 1 * (t2.vals a).headD (lit 0))⟩, ?_, ?_, ?_⟩
      · rw [getElem?_prefix p5 hlt, e2, e3]; simp
      · simp
      · rcases ha' with h0 | ⟨h0, -⟩
        · rw [vals_prefix pp hst1, vals_prefix p1 (ht _ h0).1] at e1
          rw [h0]; simp [e1]
        · rw [h0]; simp
    · subst e3 e4
      have hlt : sg < t3.length := hst1.trans_le pp.length_le
      rw [← getElem?_prefix pp hst1, ← getElem?_prefix p5 hlt] at hi1
      obtain ⟨arr, d1, d2⟩ := Option.map_eq_some_iff.1 hi1
      have hv : t3.vals sg = arr.vals := by
        rw [Heap.vals, ← getElem?_prefix p5 hlt, d1]; rfl
      refine ⟨arr, d1, by rw [← hv]; exact e2, ?_⟩
      rw [d2]
      rcases ha' with h0 | ⟨h0, -⟩
      · rw [vals_prefix pp hst1, vals_prefix p1 (ht _ h0).1] at e1
        rw [h0]; simp [e1]
      · rw [h0]; simp
  obtain ⟨-, -, g⟩ := shareUpdates_frame (s := ⟨some sg, some Nn, some N0, s1.nbatch, S20⟩) rfl h3
  obtain ⟨arr', d1, d2, d3⟩ := g arr k1
  exact ⟨sg, arr', rfl, d1, d3.trans k2, d2.trans k3⟩

/-- what one call of `update_error_variance` has written: entry by entry a draw with the numbers of the arrays just
before the call, stored the way an array of integers (`ints`) or of floats stores it -/
def UpdatedBy (toInt : F → Except PyErr ℤ) (G : Rng σ F) (fuel : ℕ) (ints : Bool) (s : SharedSettings)
    (before after : Heap F) (ss : Vec F m) : Prop :=
  ∃ a0 aN a, s.N0 = some a0 ∧ s.N = some aN ∧ s.sigma2 = some a ∧ (after.vals a).length = m ∧
    ∀ j : Fin m, ∃ n0 Nj s20 x y, (before.vals a0)[(j : ℕ)]? = some n0 ∧ (before.vals aN)[(j : ℕ)]? = some Nj ∧
      (before.vals s.S20)[(j : ℕ)]? = some s20 ∧ DrawnFrom G fuel n0 Nj s20 (ss j) x ∧
      (after.vals a)[(j : ℕ)]? = some y ∧ (if ints then ∃ k, toInt x = .ok k ∧ y = ofInt k else y = x)

theorem shareRun_updated {toInt : F → Except PyErr ℤ} {G : Rng σ F} {fuel : ℕ} {n : List ℕ} {b : ℕ}
    {s s' : SharedSettings} {calls : List (Vec F m × σ)} {c : Vec F m × σ} {st st' : Heap F} {ints : Bool}
    (h : shareRun toInt G fuel n b s (calls ++ [c]) st = .ok (st', s'))
    (ht : ∀ a, s.sigma2 = some a → a < st.length ∧ st[a]?.map NArr.ints = some ints) :
    ∃ before, shareRun toInt G fuel n b s calls st = .ok (before, s') ∧
      UpdatedBy toInt G fuel (ints && s.sigma2.any fun a => (st.vals a).length != 1) s' before st' c.1 := by
  obtain ⟨before, r', h1, h2⟩ := shareRun_last h
  obtain ⟨a, arr, e1, e2, e3, e4⟩ := shareRun_type h1 ht
  obtain ⟨a', arr', f1, f2, f3, -⟩ := shareRun_type h ht
  rw [e1] at f1; cases f1
  obtain ⟨a0, aN, a', g1, g2, g3, -, -, -, g7⟩ := shareUpdate_ok h2
  rw [e1] at g3; cases g3
  refine ⟨before, h1, a0, aN, a, g1, g2, e1, by rw [Heap.vals, f2]; exact f3, fun j => ?_⟩
  obtain ⟨arr1, x, y, n0, Nj, s20, k1, k2, k3, k4, k5, k6, k7⟩ := g7 j
  rw [e2] at k1; cases k1
  refine ⟨n0, Nj, s20, x, y, k2, k3, k4, k5, k7, ?_⟩
  rw [← e4]; exact k6

theorem settings_type {st st1 : Heap F} {sigma2 Na N0 S20 : SettingArg F} {nb : Option ℕ} {s1 : SharedSettings}
    (h1 : shareSettings st sigma2 Na N0 nb S20 = .ok (st1, s1))
    (ht : ∀ a, sigma2 = .array a ∨ Na = .array a ∨ N0 = .array a ∨ S20 = .array a → a < st.length) :
    (∀ a, s1.sigma2 = some a → a < st1.length ∧ st1[a]?.map NArr.ints = some (argInts st sigma2)) ∧
    (s1.sigma2.any fun a => (st1.vals a).length != 1) = (argVals st sigma2).any fun l => l.length != 1 := by
  obtain ⟨-, -, e2, -, -, -, e6, -, e8⟩ := shareSettings_ok h1 ht
  refine ⟨fun a ha => ⟨e6 a (.inl ha), (e8 a ha).2.1⟩, ?_⟩
  rw [← e2]; cases s1.sigma2 <;> rfl

/-- **C122 (partial).** Every update of the error variances stores the draws as drawn, when `sigma2` was left out,
given as a single number of whatever type, or given as a list or array that is not of integers: after each call each
entry is the reciprocal of a deviate of the gamma generator with shape `(N0 + N)/2` and scale `2/(N0*S20 + SS)`.

Missing from the full statement: `sigma2` given as a list or an array of integers, one for each of two or more sums of
squares; see `C122_integers` and `C122_refuted`. -/
theorem C122_drawn_partial {toInt : F → Except PyErr ℤ} {G : Rng σ F} {fuel : ℕ} {st st1 st2 : Heap F}
    {sigma2 Na N0 S20 : SettingArg F} {nb : Option ℕ} {s1 s2 : SharedSettings} {n : List ℕ} {b : ℕ}
    {calls : List (Vec F m × σ)} {c : Vec F m × σ}
    (h1 : shareSettings st sigma2 Na N0 nb S20 = .ok (st1, s1))
    (ht : ∀ a, sigma2 = .array a ∨ Na = .array a ∨ N0 = .array a ∨ S20 = .array a → a < st.length)
    (hi : argInts st sigma2 = false ∨ ∃ x, argVals st sigma2 = some [x])
    (h2 : shareRun toInt G fuel n b s1 (calls ++ [c]) st1 = .ok (st2, s2)) :
    ∃ before, shareRun toInt G fuel n b s1 calls st1 = .ok (before, s2) ∧
      ∃ a0 aN a, s2.N0 = some a0 ∧ s2.N = some aN ∧ s2.sigma2 = some a ∧ (st2.vals a).length = m ∧
        ∀ j : Fin m, ∃ n0 Nj s20 x, (before.vals a0)[(j : ℕ)]? = some n0 ∧ (before.vals aN)[(j : ℕ)]? = some Nj ∧
          (before.vals s2.S20)[(j : ℕ)]? = some s20 ∧ DrawnFrom G fuel n0 Nj s20 (c.1 j) x ∧
          (st2.vals a)[(j : ℕ)]? = some x := by
  obtain ⟨q1, q2⟩ := settings_type h1 ht
  obtain ⟨before, e1, a0, aN, a, e2, e3, e4, e5, e6⟩ := shareRun_updated h2 q1
  rw [q2] at e6
  refine ⟨before, e1, a0, aN, a, e2, e3, e4, e5, fun j => ?_⟩
  obtain ⟨n0, Nj, s20, x, y, k1, k2, k3, k4, k5, k6⟩ := e6 j
  have hf : (argInts st sigma2 && (argVals st sigma2).any fun l => l.length != 1) = false := by
    rcases hi with hi | ⟨z, hi⟩ <;> rw [hi] <;> simp
  rw [hf] at k6
  simp only [Bool.false_eq_true, if_false] at k6
  subst k6
  exact ⟨n0, Nj, s20, y, k1, k2, k3, k4, k5⟩

/-- **C122, what happens instead.** When `sigma2` is a list or an array of integers, one for each of two or more sums
of squares, every update stores `int()` of the draws: the error variances of the whole run are integers. -/
theorem C122_integers {toInt : F → Except PyErr ℤ} {G : Rng σ F} {fuel : ℕ} {st st1 st2 : Heap F}
    {sigma2 Na N0 S20 : SettingArg F} {nb : Option ℕ} {s1 s2 : SharedSettings} {n : List ℕ} {b : ℕ}
    {calls : List (Vec F m × σ)} {c : Vec F m × σ} {l : List F}
    (h1 : shareSettings st sigma2 Na N0 nb S20 = .ok (st1, s1))
    (ht : ∀ a, sigma2 = .array a ∨ Na = .array a ∨ N0 = .array a ∨ S20 = .array a → a < st.length)
    (hi : argInts st sigma2 = true) (hl : argVals st sigma2 = some l) (hl2 : 2 ≤ l.length)
    (h2 : shareRun toInt G fuel n b s1 (calls ++ [c]) st1 = .ok (st2, s2)) :
    ∃ before, shareRun toInt G fuel n b s1 calls st1 = .ok (before, s2) ∧
      ∃ a0 aN a, s2.N0 = some a0 ∧ s2.N = some aN ∧ s2.sigma2 = some a ∧ (st2.vals a).length = m ∧
        ∀ j : Fin m, ∃ n0 Nj s20 x k, (before.vals a0)[(j : ℕ)]? = some n0 ∧ (before.vals aN)[(j : ℕ)]? = some Nj ∧
          (before.vals s2.S20)[(j : ℕ)]? = some s20 ∧ DrawnFrom G fuel n0 Nj s20 (c.1 j) x ∧
          toInt x = .ok k ∧ (st2.vals a)[(j : ℕ)]? = some (ofInt k) := by
  obtain ⟨q1, q2⟩ := settings_type h1 ht
  obtain ⟨before, e1, a0, aN, a, e2, e3, e4, e5, e6⟩ := shareRun_updated h2 q1
  rw [q2] at e6
  refine ⟨before, e1, a0, aN, a, e2, e3, e4, e5, fun j => ?_⟩
  obtain ⟨n0, Nj, s20, x, y, k1, k2, k3, k4, k5, k6⟩ := e6 j
  have hf : (argInts st sigma2 && (argVals st sigma2).any fun l => l.length != 1) = true := by
    rw [hi, hl]; simp; omega
  rw [hf] at k6
  simp only [if_true] at k6
  obtain ⟨k, k6, rfl⟩ := k6
  exact ⟨n0, Nj, s20, x, k, k1, k2, k3, k4, k6, k5⟩

/-- **C122, refuted.** With `sigma2=[1, 1]`, `N0=3`, `S20=2`, five and four observations and the sums of squares 1 and 2,
the first draw lies between 0 and 1 and is stored as 0. -/
theorem C122_refuted : ∃ (g : ℚ) (r : ℕ) (st1 : Heap ℚ) (s1 : SharedSettings) (st2 : Heap ℚ) (s2 : SharedSettings),
    shareSettings ([] : Heap ℚ) (.list [.inl 1, .inl 1]) .none (.int 3) none (.int 2) = .ok (st1, s1) ∧
    shareRun Toy.toInt Toy.rng 100 [5, 4] 2 s1 [(![1, 2], 0)] st1 = .ok (st2, s2) ∧
    gammar Toy.rng 100 ((1/2) * (3 + 5)) (2 * (1 / (3 * 2 + 1))) 0 = .ok (g, r) ∧ 0 < 1 / g ∧ 1 / g < 1 ∧
    (s2.sigma2.map st2.vals).bind (·[0]?) = some 0 := by
  obtain ⟨⟨g, r⟩, e1, e2⟩ := exists_ok_and (x := gammar Toy.rng 100 ((1/2) * (3 + 5)) (2 * (1 / (3 * 2 + 1))) 0)
    (fun p => decide (0 < 1 / p.1 ∧ 1 / p.1 < 1)) (by decide +kernel)
  obtain ⟨⟨st1, s1⟩, e3, e4⟩ := exists_ok_and
    (x := shareSettings ([] : Heap ℚ) (.list [.inl 1, .inl 1]) .none (.int 3) none (.int 2))
    (fun p => match shareRun Toy.toInt Toy.rng 100 [5, 4] 2 p.2 [(![1, 2], 0)] p.1 with
      | .ok q => decide ((q.2.sigma2.map q.1.vals).bind (·[0]?) = some 0)
      | .error _ => false) (by decide +kernel)
  dsimp only at e4
  split at e4
  · rename_i q hq
    exact ⟨g, r, st1, s1, q.1, q.2, e3, hq, e1, (of_decide_eq_true e2).1, (of_decide_eq_true e2).2,
      of_decide_eq_true e4⟩
  · cases e4

/-- `int()` of a number -/
noncomputable def XR.toInt : XR → Except PyErr ℤ
  | .fin x => .ok (if 0 ≤ x then ⌊x⌋ else ⌈x⌉)
  | _ => .error .valueError

/-- **C122, draws below one.** In exact arithmetic an array of integers stores 0 for each draw between 0 and 1. -/
theorem C122_zero {x : ℝ} {k : ℤ} (h0 : 0 ≤ x) (h1 : x < 1) (hk : XR.toInt (.fin x) = .ok k) :
    (ofInt k : XR) = .fin 0 := by
  have : k = 0 := by
    have hk := Except.ok.inj hk
    rw [← hk, if_pos h0]
    exact Int.floor_eq_zero_iff.2 ⟨h0, h1⟩
  subst this
  change XR.fin (((0 : ℤ) : ℚ) : ℝ) = XR.fin 0
  simp

example : ∃ k, XR.toInt (.fin (1/2)) = .ok k ∧ (ofInt k : XR) = .fin 0 :=
  ⟨_, rfl, C122_zero (by norm_num) (by norm_num) rfl⟩

/-- a list with a float among integers makes an array of floats, and the draws are kept -/
example : ∃ st1 s1 st2 s2, shareSettings ([] : Heap ℚ) (.list [.inr 1, .inl 1]) .none (.int 3) none (.int 2)
      = .ok (st1, s1) ∧
    shareRun Toy.toInt Toy.rng 100 [5, 4] 2 s1 ([(![1, 2], 0)] ++ [(![2, 2], 3)]) st1 = .ok (st2, s2) ∧
    ∃ a x, s2.sigma2 = some a ∧ (st2.vals a)[1]? = some x ∧
      ∃ n0 Nj s20, DrawnFrom Toy.rng 100 n0 Nj s20 2 x := by
  obtain ⟨⟨st1, s1⟩, e3, e4⟩ := exists_ok_and
    (x := shareSettings ([] : Heap ℚ) (.list [.inr 1, .inl 1]) .none (.int 3) none (.int 2))
    (fun p => (shareRun Toy.toInt Toy.rng 100 [5, 4] 2 p.2 ([(![1, 2], 0)] ++ [(![2, 2], 3)]) p.1).toOption.isSome)
    (by decide +kernel)
  obtain ⟨⟨st2, s2⟩, e5⟩ := exists_ok e4
  obtain ⟨before, -, a0, aN, a, -, -, q1, -, q2⟩ := C122_drawn_partial e3
    (by rintro a (h | h | h | h) <;> cases h) (.inl (by decide)) e5
  obtain ⟨n0, Nj, s20, x, -, -, -, k4, k5⟩ := q2 1
  exact ⟨st1, s1, st2, s2, e3, e5, a, x, q1, k5, n0, Nj, s20, k4⟩

example : ∃ st1 s1 st2 s2, shareSettings ([] : Heap ℚ) (.list [.inl 1, .inl 1]) .none (.int 3) none (.int 2)
      = .ok (st1, s1) ∧
    shareRun Toy.toInt Toy.rng 100 [5, 4] 2 s1 ([] ++ [(![1, 2], 0)]) st1 = .ok (st2, s2) ∧
    ∃ a k, s2.sigma2 = some a ∧ (st2.vals a)[1]? = some (ofInt k) := by
  obtain ⟨⟨st1, s1⟩, e3, e4⟩ := exists_ok_and
    (x := shareSettings ([] : Heap ℚ) (.list [.inl 1, .inl 1]) .none (.int 3) none (.int 2))
    (fun p => (shareRun Toy.toInt Toy.rng 100 [5, 4] 2 p.2 ([] ++ [(![1, 2], 0)]) p.1).toOption.isSome)
    (by decide +kernel)
  obtain ⟨⟨st2, s2⟩, e5⟩ := exists_ok e4
  obtain ⟨before, -, a0, aN, a, -, -, q1, -, q2⟩ := C122_integers e3
    (by rintro a (h | h | h | h) <;> cases h) (by decide) rfl (by decide) e5
  obtain ⟨n0, Nj, s20, x, k, -, -, -, -, -, k5⟩ := q2 1
  exact ⟨st1, s1, st2, s2, e3, e5, a, k, q1, k5⟩

/-! ### C123 -/

/-- **C123 (partial).** Of the arrays that the results of a run refer to (`results['model_settings']`), later runs of
the same object leave all but the one of `sigma2` as they are, and that one too when there is a single sum of squares.

Missing from the full statement: the array of `sigma2` for two or more sums of squares; see `C123_overwritten` and
`C123_refuted`. -/
theorem C123_kept_partial {toInt : F → Except PyErr ℤ} {G : Rng σ F} {fuel : ℕ} {st st1 st2 : Heap F}
    {s s1 s2 : SharedSettings} {n : List ℕ} {b : ℕ} {calls : List (Vec F m × σ)} {runs : List (SharedRun F σ m)}
    {ms ms1 ms2 : ModelSettings F} {M : ErrModel F m}
    (H : ShowsSettings st s ms) (hms : checkDependentModelSettings ms n b = .ok ms1) (hms' : checkWrtNsos ms1 m = .ok ms2)
    (hM : toErrModel ms2 m = .ok M)
    (h1 : shareRun toInt G fuel n b s calls st = .ok (st1, s1))
    (h2 : shareSession toInt G fuel runs st1 s1 = .ok (st2, s2)) :
    s1.N.map st2.vals = s1.N.map st1.vals ∧ s1.N0.map st2.vals = s1.N0.map st1.vals ∧
    (s1.sigma2 ≠ some s1.S20 ∨ m = 1 → st2.vals s1.S20 = st1.vals s1.S20) ∧
    (m = 1 → s1.sigma2.map st2.vals = s1.sigma2.map st1.vals) := by
  obtain ⟨t1, r1, t2, g1, g2, g3⟩ := shareRun_ok h1
  obtain ⟨u1, v1, e1, H1⟩ := shareDependent_agree H hms
  rw [g1] at e1; cases e1
  obtain ⟨u2, v2, e2, -, H2, -, H4, H5⟩ := shareWrtNsos_agree H1 hms' hM
  rw [g2] at e2; cases e2
  obtain ⟨a0, aN, a, k0, kN, ka, n0, nN, -⟩ := H2.ex
  obtain ⟨hlen, -⟩ := shareUpdates_frame ka g3
  have key : ∀ c, c < t2.length → (s1.sigma2 ≠ some c ∨ m = 1) → st2.vals c = st1.vals c := by
    intro c hc hor
    unfold Heap.vals
    rw [shareSession_frame h2 (by omega) fun q => hor.elim (fun h => h q.1) fun h => q.2.2.1 h]
  refine ⟨?_, ?_, ?_, ?_⟩
  · rw [kN]; simp only [Option.map_some]
    rw [key aN (H4 aN (.inr (.inl kN))) (.inl (by rw [ka]; simpa using Ne.symm nN))]
  · rw [k0]; simp only [Option.map_some]
    rw [key a0 (H4 a0 (.inr (.inr k0))) (.inl (by rw [ka]; simpa using Ne.symm n0))]
  · exact fun h => key _ H5 h
  · intro hm
    rw [ka]; simp only [Option.map_some]
    rw [key a (H4 a (.inl ka)) (.inr hm)]

/-- **C123, what happens instead.** Two runs of one object from scratch that sample the variances of two or more sums
of squares share the array of `sigma2`: after the first it has the last row of the first error-variance chain, after
the second — in the results kept from the first run as well — the last row of the second chain. -/
theorem C123_overwritten (toInt : F → Except PyErr ℤ) {U U' : UserFuns F N (nS flags) m} {o o' : Obj F flags m}
    {G : Rng σ F} {L : Lapack F} {fuel : ℕ} {rng rng' : σ} {out out' : RunOut F σ flags m} {st : Heap F}
    {s : SharedSettings}
    (h : runSimulation U G L fuel o rng false = .ok out) (hu : o.ms.N0.isSome ∨ o.opts.updatesigma = true)
    (h' : runSimulation U' G L fuel o' rng' false = .ok out')
    (hu' : o'.ms.N0.isSome ∨ o'.opts.updatesigma = true) (ho : o'.ms = out.obj.ms)
    (H : ShowsSettings st s o.ms) (hm : 2 ≤ m) :
    ∃ (calls : List (Vec F m × σ)) (st1 : Heap F) (s1 : SharedSettings) (calls' : List (Vec F m × σ)) (st2 : Heap F)
      (s2 : SharedSettings) (c : List (Vec F m)) (row : Vec F m) (c' : List (Vec F m)) (row' : Vec F m) (a : ℕ),
      calls.map Prod.fst = out.results.sschain.tail ∧ calls'.map Prod.fst = out'.results.sschain.tail ∧
      shareRun toInt G fuel o.data.n o.data.nbatch s calls st = .ok (st1, s1) ∧
      shareRun toInt G fuel o'.data.n o'.data.nbatch s1 calls' st1 = .ok (st2, s2) ∧
      s1.sigma2 = some a ∧ s2.sigma2 = some a ∧
      out.results.s2chain = some c ∧ c.getLast? = some row ∧ st1.vals a = List.ofFn row ∧
      out'.results.s2chain = some c' ∧ c'.getLast? = some row' ∧ st2.vals a = List.ofFn row' := by
  obtain ⟨calls, st1, s1, c, row, a, e1, -, e3, e4, e5, e6, e7, H1⟩ := run_shared toInt h hu H
  rw [← ho] at H1
  obtain ⟨calls', st2, s2, c', row', a', f1, -, f3, f4, f5, f6, f7, -⟩ := run_shared toInt h' hu' H1
  have := shareRun_keeps f1 (H1.there.1 a (.inl e6)) e6 (by rw [e7]; simp; omega)
  rw [f6] at this; cases this
  exact ⟨calls, st1, s1, calls', st2, s2, c, row, c', row', _, e3, f3, e1, f1, e6, f6, e4, e5, e7, f4, f5, f7⟩

namespace Toy

/-- two runs of one object with sampled variances, the second with other draws -/
def sigmaTwice : Except PyErr (RunOut ℚ ℕ Toy.flags 2 × RunOut ℚ ℕ Toy.flags 2) := do
  let out ← sigmaRun none (some [3]) (some [2, 1])
  let out' ← runSimulation user2 rng lapack 100 out.obj 1 false
  .ok (out, out')

/-- the last row of the error-variance chain -/
def lastSigma (out : RunOut ℚ ℕ Toy.flags 2) : Option ℚ := (out.results.s2chain.bind List.getLast?).map (· 0)

end Toy

/-- the arrays for the default of `sigma2`, `N0=3` and `S20=[2, 1]` -/
theorem toyShows : ∃ (st : Heap ℚ) (s : SharedSettings),
    ShowsSettings st s (defineModelSettings none none (some [3]) none (some [2, 1])) := by
  obtain ⟨⟨st, s⟩, h⟩ := exists_ok (x := shareSettings ([] : Heap ℚ) .none .none (.int 3) none
    (.list [.inl 2, .inl 1])) (by decide +kernel)
  exact ⟨st, s, shareSettings_shows h ⟨(by rintro a (h | h | h | h) <;> cases h), (by rintro a h; cases h)⟩ (.inl rfl)⟩

/-- **C123, refuted.** There are two completed runs of one object such that the `sigma2` in the results of the first
run has changed after the second. -/
theorem C123_refuted : ∃ (out out' : RunOut ℚ ℕ Toy.flags 2) (st st1 st2 : Heap ℚ) (s s1 s2 : SharedSettings)
    (calls calls' : List (Vec ℚ 2 × ℕ)) (a : ℕ),
    Toy.sigmaRun none (some [3]) (some [2, 1]) = .ok out ∧
    runSimulation Toy.user2 Toy.rng Toy.lapack 100 out.obj 1 false = .ok out' ∧
    shareRun Toy.toInt Toy.rng 100 Toy.data2.n Toy.data2.nbatch s calls st = .ok (st1, s1) ∧
    shareRun Toy.toInt Toy.rng 100 out.obj.data.n out.obj.data.nbatch s1 calls' st1 = .ok (st2, s2) ∧
    s1.sigma2 = some a ∧ st2.vals a ≠ st1.vals a := by
  obtain ⟨⟨out, out'⟩, h, hx⟩ := exists_ok_and (x := Toy.sigmaTwice)
    (fun p => decide (Toy.lastSigma p.1 ≠ Toy.lastSigma p.2 ∧ p.1.obj.opts.updatesigma = true)) (by decide +kernel)
  obtain ⟨hx, hu⟩ := of_decide_eq_true hx
  unfold Toy.sigmaTwice at h
  obtain ⟨out1, h1, h⟩ := bind_ok.1 h
  obtain ⟨out2, h2, h⟩ := bind_ok.1 h
  cases h
  obtain ⟨st, s, H⟩ := toyShows
  obtain ⟨calls, st1, s1, calls', st2, s2, c, row, c', row', a, -, -, e1, e2, e3, e4, e5, e6, e7, e8, e9, e10⟩ :=
    C123_overwritten Toy.toInt h1 (.inr rfl) h2 (.inr hu) rfl H le_rfl
  refine ⟨out, out', st, st1, st2, s, s1, s2, calls, calls', a, h1, h2, e1, e2, e3, fun he => hx ?_⟩
  unfold Toy.lastSigma
  rw [e5, e8]
  simp only [Option.bind_some, e6, e9]
  rw [e7, e10] at he
  have := congrArg (·[0]?) he
  simpa using this.symm

/-- after a run and a later session the number of observations and the priors in the results are as they were -/
example : ∃ (st st1 st2 : Heap ℚ) (s s1 s2 : SharedSettings),
    shareSettings ([] : Heap ℚ) .none .none (.int 3) none (.list [.inl 2, .inl 1]) = .ok (st, s) ∧
    shareRun Toy.toInt Toy.rng 100 [5, 4] 2 s [((![1, 2] : Vec ℚ 2), 0)] st = .ok (st1, s1) ∧
    shareSession Toy.toInt Toy.rng 100 [⟨[5, 4], 2, [((![3, 2] : Vec ℚ 2), 4)]⟩] st1 s1 = .ok (st2, s2) ∧
    s1.N0.map st2.vals = s1.N0.map st1.vals := by
  obtain ⟨⟨st, s⟩, h, hx⟩ := exists_ok_and (x := shareSettings ([] : Heap ℚ) .none .none (.int 3) none
    (.list [.inl 2, .inl 1])) (fun p => match shareRun Toy.toInt Toy.rng 100 [5, 4] 2 p.2 [((![1, 2] : Vec ℚ 2), 0)] p.1 with
      | .ok q => (shareSession Toy.toInt Toy.rng 100 [⟨[5, 4], 2, [((![3, 2] : Vec ℚ 2), 4)]⟩] q.1 q.2).toOption.isSome
      | .error _ => false) (by decide +kernel)
  dsimp only at hx
  split at hx
  · rename_i q hq
    obtain ⟨⟨st2, s2⟩, h2⟩ := exists_ok hx
    have H := shareSettings_shows h ⟨(by rintro a (h | h | h | h) <;> cases h), (by rintro a h; cases h)⟩ (.inl rfl)
    obtain ⟨ms1, k1, k2⟩ := exists_ok_and (x := checkDependentModelSettings (F := ℚ)
      (defineModelSettings none none (some [3]) none (some [2, 1])) [5, 4] 2)
      (fun ms1 => match checkWrtNsos ms1 2 with
        | .ok ms2 => (toErrModel ms2 2).toOption.isSome
        | .error _ => false) (by decide +kernel)
    split at k2
    · rename_i ms2 k3
      obtain ⟨M, k4⟩ := exists_ok k2
      exact ⟨st, q.1, st2, s, q.2, s2, h, hq, h2, (C123_kept_partial H k1 k3 k4 hq h2).2.1⟩
    · cases k2
  · cases hx

/-! ### C22, once more -/

theorem shareRun_keepsS20 {toInt : F → Except PyErr ℤ} {G : Rng σ F} {fuel : ℕ} {n : List ℕ} {b : ℕ}
    {s s' : SharedSettings} {calls : List (Vec F m × σ)} {st st' : Heap F}
    (h : shareRun toInt G fuel n b s calls st = .ok (st', s')) {c : ℕ} (hc : c < st.length)
    (hs : s.sigma2 = some c) (hS : s.S20 = c) (hl : (st.vals c).length ≠ 1) : s'.S20 = c := by
  obtain ⟨st1, s1, st2, h1, h2, h3⟩ := shareRun_ok h
  obtain ⟨p1, a, ha, ha'⟩ := shareDependent_ok h1
  have hac : s1.S20 = c := by
    have hs1 : s1.S20 = s.S20 ∨ s1.sigma2 = some s1.S20 := by
      unfold shareDependent at h1
      obtain ⟨aN, -, h1⟩ := bind_ok.1 h1
      have h1 := (Except.ok.inj h1).symm
      rw [(Prod.mk.inj h1).2]
      dsimp only
      split
      · exact .inr rfl
      · exact .inl rfl
    rcases hs1 with h | h
    · rw [h, hS]
    · rw [ha] at h; cases h
      rw [hs] at ha'
      rcases ha' with h | ⟨h, -⟩ <;> cases h
      rfl
  obtain ⟨t1, t2, t3, b0, a', bN, S20, N0, sg, Nn, q1, -, q2, q3, q4, -, q5, rfl⟩ := shareWrtNsos_ok h2
  rw [hac] at q1
  rw [← vals_prefix p1 hc] at hl
  rcases shareSize_ok q1 with ⟨e, -⟩ | ⟨-, -, e, -⟩
  · exact absurd e hl
  · exact e

/-- **C22, one array for both.** When the user passes the same array as `sigma2` and as `S20`, with one entry for each
of two or more sums of squares, every draw uses the error variances of the row before as `S20`: the prior is not
fixed although it was given. -/
theorem C22_same_array {toInt : F → Except PyErr ℤ} {G : Rng σ F} {fuel : ℕ} {st st1 st2 : Heap F}
    {Na N0 : SettingArg F} {nb : Option ℕ} {s1 s2 : SharedSettings} {n : List ℕ} {b c : ℕ}
    {calls : List (Vec F m × σ)} {call : Vec F m × σ}
    (h1 : shareSettings st (.array c) Na N0 nb (.array c) = .ok (st1, s1))
    (ht : ∀ a, a = c ∨ Na = .array a ∨ N0 = .array a → a < st.length)
    (hi : argInts st (.array c) = false) (hl : 2 ≤ (st.vals c).length)
    (h2 : shareRun toInt G fuel n b s1 (calls ++ [call]) st1 = .ok (st2, s2)) :
    ∃ before, shareRun toInt G fuel n b s1 calls st1 = .ok (before, s2) ∧ 
      ∃ a0 aN, s2.N0 = some a0 ∧ s2.N = some aN ∧ ∀ j : Fin m, ∃ n0 Nj prev x,
      (before.vals a0)[(j : ℕ)]? = some n0 ∧ (before.vals aN)[(j : ℕ)]? = some Nj ∧
      (before.vals c)[(j : ℕ)]? = some prev ∧ (st2.vals c)[(j : ℕ)]? = some x ∧
      DrawnFrom G fuel n0 Nj prev (call.1 j) x := by
  have ht' : ∀ a, (SettingArg.array c : SettingArg F) = .array a ∨ Na = .array a ∨ N0 = .array a ∨
      (SettingArg.array c : SettingArg F) = .array a → a < st.length := by
    rintro a (h | h | h | h)
    · cases h; exact ht _ (.inl rfl)
    · exact ht _ (.inr (.inl h))
    · exact ht _ (.inr (.inr h))
    · cases h; exact ht _ (.inl rfl)
  obtain ⟨before, e1, a0, aN, a, e2, e3, e4, e5, e6⟩ := C122_drawn_partial h1 ht' (.inl hi) h2
  obtain ⟨p, -, k2, -, -, k5, k6, -, k8⟩ := shareSettings_ok h1 ht'
  have hc : c < st.length := ht c (.inl rfl)
  have hs : s1.sigma2 = some c := by
    obtain ⟨a', q1, -⟩ := Option.map_eq_some_iff.1 k2
    rcases (k8 a' q1).1 with h | ⟨-, h⟩
    · cases h; exact q1
    · exact absurd rfl (h c)
  have hS : s1.S20 = c := by
    unfold shareSettings at h1
    obtain ⟨⟨t1, a1⟩, -, h1⟩ := bind_ok.1 h1
    obtain ⟨⟨t2, a2⟩, -, h1⟩ := bind_ok.1 h1
    obtain ⟨⟨t3, a3⟩, -, h1⟩ := bind_ok.1 h1
    cases h1; rfl
  have hlen : (st1.vals c).length ≠ 1 := by rw [vals_prefix p hc]; omega
  have q1 := shareRun_keeps h2 (hc.trans_le p.length_le) hs hlen
  have q2 := shareRun_keepsS20 h2 (hc.trans_le p.length_le) hs hS hlen
  rw [q1] at e4; cases e4
  rw [q2] at e6
  refine ⟨before, e1, a0, aN, e2, e3, fun j => ?_⟩
  obtain ⟨n0, Nj, s20, x, r1, r2, r3, r4, r5⟩ := e6 j
  exact ⟨n0, Nj, s20, x, r1, r2, r3, r5, r4⟩

/-- the array `[1, 1]` for both -/
example : ∃ st1 s1 st2 s2, shareSettings ([⟨false, [1, 1]⟩] : Heap ℚ) (.array 0) .none (.int 3) none (.array 0)
      = .ok (st1, s1) ∧
    shareRun Toy.toInt Toy.rng 100 [5, 4] 2 s1 ([(![1, 2], 0)] ++ [(![2, 2], 3)]) st1 = .ok (st2, s2) ∧
    ∃ before, shareRun Toy.toInt Toy.rng 100 [5, 4] 2 s1 [(![1, 2], 0)] st1 = .ok (before, s2) ∧
      before.vals 0 ≠ [1, 1] ∧ ∃ n0 Nj prev x, (before.vals 0)[1]? = some prev ∧ (st2.vals 0)[1]? = some x ∧
      DrawnFrom Toy.rng 100 n0 Nj prev 2 x := by
  obtain ⟨⟨st1, s1⟩, e3, e4⟩ := exists_ok_and
    (x := shareSettings ([⟨false, [1, 1]⟩] : Heap ℚ) (.array 0) .none (.int 3) none (.array 0))
    (fun p => (shareRun Toy.toInt Toy.rng 100 [5, 4] 2 p.2 ([(![1, 2], 0)] ++ [(![2, 2], 3)]) p.1).toOption.isSome &&
      match shareRun Toy.toInt Toy.rng 100 [5, 4] 2 p.2 [(![1, 2], 0)] p.1 with
      | .ok q => decide (q.1.vals 0 ≠ [1, 1])
      | .error _ => false)
    (by decide +kernel)
  rw [Bool.and_eq_true] at e4
  obtain ⟨⟨st2, s2⟩, e5⟩ := exists_ok e4.1
  obtain ⟨before, e6, a0, aN, -, -, q⟩ := C22_same_array e3
    (by rintro a (h | h | h) <;> first | (cases h; decide) | cases h) (by decide) (by decide) e5
  have e7 := e4.2
  rw [e6] at e7
  obtain ⟨n0, Nj, prev, x, -, -, k3, k4, k5⟩ := q 1
  exact ⟨st1, s1, st2, s2, e3, e5, before, e6, of_decide_eq_true e7, n0, Nj, prev, x, k3, k4, k5⟩

end Verif
