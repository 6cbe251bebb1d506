import Verif.Lemmas.SharedArrays
import Verif.Props.ErrorVariance

/-! # Agreement of the model with shared arrays with the model on values -/

set_option linter.unusedSectionVars false

namespace Verif
variable {F σ : Type} [PyFloat F] {N m : ℕ} {flags : Fin N → Bool}

/-- The settings object and the arrays have the values `ms`; `N` and `N0` are not the array of `sigma2`; the array of
`sigma2` has floats unless it is a single number. -/
structure ShowsSettings (st : Heap F) (s : SharedSettings) (ms : ModelSettings F) : Prop where
  sigma2 : s.sigma2.map st.vals = ms.sigma2
  N : s.N.map st.vals = ms.N
  N0 : s.N0.map st.vals = ms.N0
  nbatch : s.nbatch = ms.nbatch
  S20 : st.vals s.S20 = ms.s20Now
  same : ms.s20Alias = true ↔ s.sigma2 = some s.S20
  there : (∀ a, s.sigma2 = some a ∨ s.N = some a ∨ s.N0 = some a → a < st.length) ∧ s.S20 < st.length
  apart : ∀ a, s.sigma2 = some a → s.N ≠ some a ∧ s.N0 ≠ some a
  floats : ∀ a arr, s.sigma2 = some a → st[a]? = some arr → arr.ints = false ∨ arr.vals.length = 1

theorem vals_append_left (st l : Heap F) {a : ℕ} (h : a < st.length) : Heap.vals (st ++ l) a = st.vals a :=
  vals_prefix (List.prefix_append _ _) h

theorem checkNumber_cases {u d l : List F} (h : checkNumberOfObservations u d = .ok l) :
    l = if arrayEqual u d ∨ u.length < d.length then d else u := by
  unfold checkNumberOfObservations at h
  split at h
  · rename_i h1
    cases h; simp [h1]
  · split at h
    · rename_i h1 h2
      rw [if_pos (.inr h2.1)]
      split at h
      · split at h <;> cases h; rfl
      · cases h
    · split at h
      · rename_i h1 h2 h3
        rw [if_neg (by rintro (h | h); exact h1 h; omega)]
        split at h
        · split at h <;> cases h; rfl
        · cases h
      · cases h

theorem shareObservations_agree {st : Heap F} {u d : ℕ} {l : List F}
    (h : checkNumberOfObservations (st.vals u) (st.vals d) = .ok l) :
    ∃ a, shareObservations st u d = .ok a ∧ st.vals a = l ∧ (a = d ∨ a = u) := by
  unfold shareObservations
  rw [h, checkNumber_cases h]
  refine ⟨_, rfl, ?_, ?_⟩ <;> split
  · rfl
  · rfl
  · exact .inl rfl
  · exact .inr rfl

theorem shareDependent_agree {st : Heap F} {s : SharedSettings} {ms ms' : ModelSettings F} {n : List ℕ} {b : ℕ}
    (H : ShowsSettings st s ms) (h : checkDependentModelSettings ms n b = .ok ms') :
    ∃ st' s', shareDependent st s n b = .ok (st', s') ∧ ShowsSettings st' s' ms' := by
  unfold checkDependentModelSettings at h
  obtain ⟨Nl, h1, h⟩ := bind_ok.1 h
  obtain ⟨p, hp⟩ : ∃ p, p = st.alloc ⟨true, n.map fun k : ℕ => ofInt k⟩ := ⟨_, rfl⟩
  have hpl : p.1.length = st.length + 1 := by simp [hp, alloc_eq]
  have hp2 : p.2 = st.length := by simp [hp, alloc_eq]
  have hpp : st <+: p.1 := ⟨_, by rw [hp, alloc_eq]⟩
  have hpv : p.1.vals p.2 = n.map fun k : ℕ => ofInt k := by
    rw [hp, alloc_eq]; exact vals_alloc _ _
  obtain ⟨aN, hN1, hN2, hN3⟩ : ∃ a, (s.N.elim (.ok p.2) fun u => shareObservations p.1 u p.2) = .ok a ∧
      p.1.vals a = Nl ∧ (a = st.length ∨ s.N = some a) := by
    have hN := H.N
    cases hs : s.N with
    | none =>
      rw [hs] at hN
      rw [← hN] at h1
      cases h1
      exact ⟨_, rfl, hpv, .inl hp2⟩
    | some u =>
      rw [hs] at hN
      rw [← hN] at h1
      simp only [Option.map_some, Option.elim] at h1 ⊢
      rw [← hpv, ← vals_prefix hpp (H.there.1 u (.inr (.inl hs)))] at h1
      obtain ⟨a, e1, e2, e3⟩ := shareObservations_agree h1
      refine ⟨a, e1, e2, ?_⟩
      rcases e3 with rfl | rfl
      · exact .inl hp2
      · exact .inr rfl
  have hval : ∀ {t : Heap F}, p.1 <+: t → ∀ {a}, a < st.length → t.vals a = st.vals a := fun ht a ha => by
    rw [vals_prefix ht (by omega), vals_prefix hpp ha]
  have haN : aN < p.1.length := by
    rcases hN3 with rfl | h
    · omega
    · have := H.there.1 aN (.inr (.inl h)); omega
  have hfin : ∀ {t : Heap F} (ht : p.1 <+: t) (sg N0 : ℕ) (sgl N0l : List F),
      defaultN0 ms.sigma2 ms.N0 = (some sgl, N0l) ∨ (defaultN0 ms.sigma2 ms.N0 = (none, N0l) ∧
        sgl = List.replicate (ms.nbatch.getD b) (lit 1)) →
      t.vals sg = sgl → t.vals N0 = N0l → sg < t.length → N0 < t.length →
      (s.sigma2 = some sg ∨ (p.1.length ≤ sg ∧ s.sigma2 = none)) → N0 ≠ sg →
      (∀ arr, t[sg]? = some arr → arr.ints = false ∨ arr.vals.length = 1) →
      ShowsSettings t ⟨some sg, some aN, some N0, some (s.nbatch.getD b),
        if (t.vals s.S20).any PyFloat.isnan then sg else s.S20⟩ ms' := by
    intro t ht sg N0 sgl N0l hd hsg hN0 hlt hlt0 hor hne hfl
    have hd' : (defaultN0 ms.sigma2 ms.N0).2 = N0l ∧ (defaultN0 ms.sigma2 ms.N0).1.getD
        (List.replicate (ms.nbatch.getD b) (lit 1)) = sgl := by
      rcases hd with hd | ⟨hd, rfl⟩ <;> rw [hd] <;> exact ⟨rfl, rfl⟩
    have h := (Except.ok.inj h).symm
    obtain ⟨s1, hs1⟩ : ∃ s1 : ModelSettings F, s1 = { ms with
      sigma2 := some sgl, N := some Nl, N0 := some N0l, nbatch := some (ms.nbatch.getD b) } := ⟨_, rfl⟩
    have h' : ms' = if s1.s20Now.any PyFloat.isnan then { s1 with s20Alias := true } else s1 := by
      rw [h, hs1, ← hd'.1, ← hd'.2]; rfl
    have hS20 := hval ht H.there.2
    have hnow : t.vals s.S20 = s1.s20Now := by
      rw [hS20, H.S20, hs1]
      unfold ModelSettings.s20Now
      by_cases ha : ms.s20Alias = true
      · have hsm := H.same.1 ha
        have e := H.sigma2
        rw [hsm] at e
        rcases hor with ho | ⟨_, ho⟩
        · rw [hsm] at ho; cases ho
          rw [if_pos ha, if_pos (by exact ha), ← e]
          exact hS20.symm.trans hsg
        · rw [ho] at hsm; cases hsm
      · simp [ha]
    have hsame : ms.s20Alias = true ↔ sg = s.S20 := by
      rw [H.same]
      rcases hor with ho | ⟨ho, ho'⟩
      · rw [ho]; simp
      · have := H.there.2
        rw [ho']; simp; omega
    have hv : ∀ a, a = sg → s.N ≠ some a := by
      rintro a rfl
      rcases hor with ho | ⟨ho, ho'⟩
      · exact (H.apart _ ho).1
      · intro he
        have := H.there.1 _ (.inr (.inl he)); omega
    have hNne : aN ≠ sg := by
      rcases hN3 with he | he
      · rintro rfl
        rcases hor with ho | ⟨ho, ho'⟩
        · have := H.there.1 _ (.inl ho); omega
        · omega
      · rintro rfl
        exact hv _ rfl he
    have hgen : ∀ S, S < t.length → ∀ al : Bool, (al = true ↔ sg = S) →
        t.vals S = (if al then sgl else s1.S20) →
        ShowsSettings t ⟨some sg, some aN, some N0, some (s.nbatch.getD b), S⟩ { s1 with s20Alias := al } := by
      intro S hS al h1 h2
      refine ⟨?_, ?_, ?_, ?_, ?_, ?_, ⟨?_, hS⟩, ?_, ?_⟩
      · rw [hs1]; simp [hsg]
      · rw [hs1]; simp only [Option.map_some]; rw [vals_prefix ht haN, hN2]
      · rw [hs1]; simp [hN0]
      · rw [hs1, H.nbatch]
      · rw [h2, hs1]; unfold ModelSettings.s20Now; simp
      · rw [h1]; simp
      · rintro a (e | e | e) <;> cases e
        · exact hlt
        · exact lt_of_lt_of_le haN ht.length_le
        · exact hlt0
      · intro a e; cases e
        exact ⟨by simpa using hNne, by simpa using hne⟩
      · intro a arr e; cases e; exact hfl arr
    have hS20lt : s.S20 < t.length := by
      have := H.there.2; have := hpp.length_le; have := ht.length_le; omega
    rw [h', hnow]
    split
    · exact hgen sg hlt true (by simp) (by simp [hsg])
    · have he : s1 = { s1 with s20Alias := ms.s20Alias } := by rw [hs1]
      rw [he]
      refine hgen s.S20 hS20lt _ hsame ?_
      rw [hnow, hs1]; unfold ModelSettings.s20Now; rfl
  unfold shareDependent
  rw [← hp]
  dsimp only
  rw [hN1, ok_bind]
  refine ⟨_, _, rfl, ?_⟩
  have hsg := H.sigma2
  have hn0 := H.N0
  have hthere := H.there.1
  have hap := H.apart
  have hflo := H.floats
  cases e0 : s.N0 with
  | none =>
    cases es : s.sigma2 with
    | none =>
      rw [e0] at hn0
      rw [es] at hsg
      simp only [shareDefaults, shareSigma2]
      refine hfin (List.prefix_append _ _) _ _ [lit 1] [lit 0] (.inl ?_) ?_ ?_ (by simp) (by simp)
        (.inr ⟨le_rfl, es⟩) (by simp) ?_
      · rw [← hsg, ← hn0]; rfl
      · simp [Heap.vals]
      · simp [Heap.vals]
      · intro arr harr
        simp at harr
        rw [← harr]; exact .inl rfl
    | some a =>
      rw [e0] at hn0
      rw [es] at hsg
      have ha := hthere a (.inl es)
      simp only [shareDefaults, shareSigma2]
      refine hfin (List.prefix_append _ _) _ _ (st.vals a) [lit 1] (.inl ?_) ?_ ?_ (by simp; omega) (by simp)
        (.inl es) (by omega) ?_
      · rw [← hsg, ← hn0]; rfl
      · exact hval (List.prefix_append _ _) ha
      · simp [Heap.vals]
      · intro arr harr
        rw [List.getElem?_append_left (by omega), getElem?_prefix hpp ha] at harr
        exact hflo a arr es harr
  | some a0 =>
    rw [e0] at hn0
    have ha0 := hthere a0 (.inr (.inr e0))
    cases es : s.sigma2 with
    | none =>
      rw [es] at hsg
      simp only [shareDefaults, shareSigma2, alloc_eq]
      refine hfin (List.prefix_append _ _) _ _ (List.replicate (s.nbatch.getD b) (lit 1)) (st.vals a0)
        (.inr ⟨?_, by rw [H.nbatch]⟩) ?_ ?_ (by simp) (by simp; omega) (.inr ⟨le_rfl, es⟩) (by omega) ?_
      · rw [← hsg, ← hn0]; rfl
      · exact vals_alloc _ _
      · exact hval (List.prefix_append _ _) ha0
      · intro arr harr
        simp at harr
        rw [← harr]; exact .inl rfl
    | some a =>
      rw [es] at hsg
      have ha := hthere a (.inl es)
      simp only [shareDefaults, shareSigma2]
      refine hfin List.prefix_rfl _ _ (st.vals a) (st.vals a0) (.inl ?_) ?_ ?_ (by omega) (by omega)
        (.inl es) ?_ ?_
      · rw [← hsg, ← hn0]; rfl
      · exact hval List.prefix_rfl ha
      · exact hval List.prefix_rfl ha0
      · rintro rfl; exact (hap _ es).2 e0
      · intro arr harr
        rw [getElem?_prefix hpp ha] at harr
        exact hflo a arr es harr

/-! ### the second check -/

theorem shareSize_agree {st : Heap F} {a : ℕ} {l : List F} {f : Bool} (ha : a < st.length)
    (h : checkSizeOfSetting (st.vals a) m = .ok (l, f)) :
    ∃ st' b, shareSize st a m = .ok (st', b) ∧ st <+: st' ∧ st'.vals b = l ∧ b < st'.length ∧
      ((f = true ∧ st.length ≤ b ∧ st'[b]? = some ⟨false, l⟩) ∨
       (f = false ∧ b = a ∧ st' = st ∧ (st.vals a).length ≠ 1)) := by
  rcases checkSizeOfSetting_ok h with ⟨rfl, x, hx, rfl⟩ | ⟨rfl, hx, rfl, hm⟩
  · refine ⟨_, _, by unfold shareSize; rw [if_pos (by rw [hx]; rfl), alloc_eq], List.prefix_append _ _, ?_, by simp,
      .inl ⟨rfl, le_rfl, ?_⟩⟩
    · rw [vals_alloc, hx]; rfl
    · simp [hx]
  · refine ⟨st, a, ?_, List.prefix_rfl, rfl, ha, .inr ⟨rfl, rfl, rfl, hx⟩⟩
    unfold shareSize
    rw [if_neg hx, if_neg (by omega), if_neg (by omega)]

theorem shareSizeN_agree {st : Heap F} {a : ℕ} {l : List F} (ha : a < st.length)
    (h : checkSizeOfObservations (st.vals a) m = .ok l) :
    ∃ st' b, shareSizeN st a m = .ok (st', b) ∧ st <+: st' ∧ st'.vals b = l ∧ b < st'.length ∧
      (b = a ∨ st.length ≤ b) := by
  unfold shareSizeN
  rw [h, ok_bind]
  split
  · exact ⟨_, _, rfl, List.prefix_append _ _, vals_alloc _ _, by simp, .inr le_rfl⟩
  · rename_i hn
    refine ⟨_, _, rfl, List.prefix_rfl, ?_, ha, .inl rfl⟩
    unfold checkSizeOfObservations at h
    split at h
    · rename_i x hx
      exact absurd (.inl (by rw [hx]; rfl)) hn
    · split at h
      · cases h
      · split at h
        · rename_i hh
          exact absurd (.inr hh) hn
        · cases h; rfl

/-- The arrays of the settings object after the checks hold the numbers of `M`. -/
structure HoldsModel (st : Heap F) (s : SharedSettings) (M : ErrModel F m) : Prop where
  ex : ∃ a0 aN a, s.N0 = some a0 ∧ s.N = some aN ∧ s.sigma2 = some a ∧ a0 ≠ a ∧ aN ≠ a ∧
    st.vals a0 = List.ofFn M.N0 ∧ st.vals aN = M.N ∧ st[a]? = some ⟨false, List.ofFn M.sigma2⟩ ∧
    ((M.S20 = .aliasSigma2 ∧ s.S20 = a) ∨ ∃ v, M.S20 = .own v ∧ s.S20 ≠ a ∧ st.vals s.S20 = List.ofFn v)

theorem ofFn_of_getElem? {l : List F} {v : Vec F m} (hl : l.length = m)
    (h : ∀ j : Fin m, l[(j : ℕ)]? = some (v j)) : l = List.ofFn v := by
  apply List.ext_getElem?
  intro i
  by_cases hi : i < m
  · rw [h ⟨i, hi⟩]; simp [hi]
  · rw [List.getElem?_eq_none (by omega), List.getElem?_eq_none (by simp; omega)]

theorem shareWrtNsos_agree {st : Heap F} {s : SharedSettings} {ms ms' : ModelSettings F} {M : ErrModel F m}
    (H : ShowsSettings st s ms) (h : checkWrtNsos ms m = .ok ms') (hM : toErrModel ms' m = .ok M) :
    ∃ st' s', shareWrtNsos st s m = .ok (st', s') ∧ st <+: st' ∧ HoldsModel st' s' M ∧ s'.nbatch = ms'.nbatch ∧
      (∀ a, s'.sigma2 = some a ∨ s'.N = some a ∨ s'.N0 = some a → a < st'.length) ∧ s'.S20 < st'.length := by
  obtain ⟨S20, f1, n0, N0, f2, sg, sigma2, f3, N1, N2, b1, b2, b3, b4, b5, b6, b7, rfl⟩ := checkWrtNsos_ok h
  obtain ⟨s2, n0', N', c1, c2, c3, c4, c5, c6, c7, c8⟩ := toErrModel_ok hM
  cases c1; cases c2; cases c3
  have l1 := checkSizeOfSetting_length b1
  have l2 := checkSizeOfSetting_length b3
  have l3 := checkSizeOfSetting_length b5
  obtain ⟨a0, e0, v0⟩ : ∃ a, s.N0 = some a ∧ st.vals a = n0 := by
    have := H.N0; rw [b2] at this; exact Option.map_eq_some_iff.1 this
  obtain ⟨a, e, v⟩ : ∃ a, s.sigma2 = some a ∧ st.vals a = sg := by
    have := H.sigma2; rw [b4] at this; exact Option.map_eq_some_iff.1 this
  obtain ⟨aN, eN, vN⟩ : ∃ a, s.N = some a ∧ st.vals a = N1 := by
    have := H.N; rw [b6] at this; exact Option.map_eq_some_iff.1 this
  have ha0 := H.there.1 a0 (.inr (.inr e0))
  have ha := H.there.1 a (.inl e)
  have haN := H.there.1 aN (.inr (.inl eN))
  rw [← H.S20] at b1
  obtain ⟨st1, q1, r1, p1, w1, t1, k1⟩ := shareSize_agree H.there.2 b1
  have := p1.length_le
  rw [← v0, ← vals_prefix p1 ha0] at b3
  obtain ⟨st2, q2, r2, p2, w2, t2, k2⟩ := shareSize_agree (by omega) b3
  have := p2.length_le
  rw [← v, ← vals_prefix (p1.trans p2) ha] at b5
  obtain ⟨st3, q3, r3, p3, w3, t3, k3⟩ := shareSize_agree (by omega) b5
  have := p3.length_le
  rw [← vN, ← vals_prefix (p1.trans (p2.trans p3)) haN] at b7
  obtain ⟨st4, q4, r4, p4, w4, t4, k4⟩ := shareSizeN_agree (by omega) b7
  have := p4.length_le
  have hap := H.apart a e
  rw [e0, eN] at hap
  refine ⟨st4, ⟨some q3, some q4, some q2, s.nbatch, q1⟩, ?_, p1.trans (p2.trans (p3.trans p4)),
    ⟨q2, q4, q3, rfl, rfl, rfl, ?_, ?_, ?_, ?_, ?_, ?_⟩, H.nbatch, ?_, lt_of_lt_of_le t1 (by omega)⟩
  · unfold shareWrtNsos
    rw [r1, ok_bind, e0, e, eN]
    simp only [orRaise, ok_bind]
    rw [r2, ok_bind]
    dsimp only
    rw [r3, ok_bind]
    dsimp only
    rw [r4, ok_bind]
  · rcases k2 with ⟨-, k2, -⟩ | ⟨-, rfl, rfl, -⟩ <;> rcases k3 with ⟨-, k3, -⟩ | ⟨-, rfl, rfl, -⟩
    · omega
    · omega
    · omega
    · rintro rfl; exact hap.2 rfl
  · rcases k4 with rfl | k4
    · rcases k3 with ⟨-, k3, -⟩ | ⟨-, rfl, rfl, -⟩
      · omega
      · rintro rfl; exact hap.1 rfl
    · omega
  · rw [vals_prefix (p3.trans p4) t2, w2]
    exact ofFn_of_getElem? l2 c6
  · rw [w4, c4]
  · rw [getElem?_prefix p4 t3]
    have hs2 := ofFn_of_getElem? l3 c5
    rcases k3 with ⟨-, -, k3⟩ | ⟨-, rfl, rfl, k3⟩
    · rw [k3, hs2]
    · obtain ⟨arr, harr⟩ : ∃ arr, st3[q3]? = some arr := ⟨_, List.getElem?_eq_getElem t3⟩
      have hv : arr.vals = sigma2 := by rw [← w3, Heap.vals, harr]; rfl
      have hi : arr.ints = false := by
        have h0 : st[q3]? = some arr := by rw [← getElem?_prefix (p1.trans p2) ha]; exact harr
        rcases H.floats _ arr e h0 with h | h
        · exact h
        · exact absurd (by rw [w3, ← hv]; exact h) k3
      rw [harr, ← hs2, ← hv, ← hi]
  · by_cases hal : (ms.s20Alias && !f1 && !f3) = true
    · refine .inl ⟨c7 hal, ?_⟩
      simp only [Bool.and_eq_true, Bool.not_eq_true'] at hal
      obtain ⟨⟨g1, g2⟩, g3⟩ := hal
      have := H.same.1 g1
      rw [e] at this; cases this
      rcases k1 with ⟨k1, -⟩ | ⟨-, k1, -⟩
      · rw [g2] at k1; cases k1
      · rcases k3 with ⟨k3, -⟩ | ⟨-, k3, -⟩
        · rw [g3] at k3; cases k3
        · exact k1.trans k3.symm
    · have hal' : (ms.s20Alias && !f1 && !f3) = false := by simpa using hal
      obtain ⟨v', d1, d2⟩ := c8 hal'
      refine .inr ⟨v', d1, ?_, ?_⟩
      · dsimp only
        intro he
        rcases k1 with ⟨k0, k1, -⟩ | ⟨k0, k1, -⟩ <;> rcases k3 with ⟨k5, k3, -⟩ | ⟨k5, k3, -⟩
        · omega
        · omega
        · have := H.there.2; omega
        · apply hal
          have : s.sigma2 = some s.S20 := by rw [e, ← k1, ← k3, he]
          rw [H.same.2 this, k0, k5]; rfl
      · dsimp only
        rw [vals_prefix (p2.trans (p3.trans p4)) t1, w1]
        exact ofFn_of_getElem? l1 d2
  · rintro b (e | e | e) <;> cases e <;> omega

/-- arrays that hold the numbers of the error model show the settings object after the run -/
theorem HoldsModel.shows {st : Heap F} {s : SharedSettings} {ms : ModelSettings F} {M M0 : ErrModel F m}
    (H : HoldsModel st s M) (hb : s.nbatch = ms.nbatch)
    (ht : (∀ a, s.sigma2 = some a ∨ s.N = some a ∨ s.N0 = some a → a < st.length) ∧ s.S20 < st.length)
    (hl : ∀ l, ms.N0 = some l → l.length = m) (hl' : ms.S20.length = m)
    (hM : toErrModel ms m = .ok M0) (h1 : M.N0 = M0.N0) (h2 : M.N = M0.N) (h3 : M.S20 = M0.S20) :
    ShowsSettings st s (settingsAfter ms M) := by
  obtain ⟨a0, aN, a, g1, g2, g3, n0, nN, v0, vN, va, vS⟩ := H.ex
  obtain ⟨s2, n0', N', c1, c2, c3, c4, c5, c6, c7, c8⟩ := toErrModel_ok hM
  have hva : st.vals a = List.ofFn M.sigma2 := by rw [Heap.vals, va]; rfl
  have hal : ms.s20Alias = true ↔ M.S20 = .aliasSigma2 := by
    constructor
    · intro h; rw [h3]; exact c7 h
    · intro h
      by_contra hc
      obtain ⟨v, e, -⟩ := c8 (by simpa using hc)
      rw [h3, e] at h; cases h
  refine ⟨?_, ?_, ?_, hb, ?_, ?_, ht, ?_, ?_⟩
  · rw [g3]; simp [settingsAfter, hva]
  · rw [g2]; simp [settingsAfter, vN, h2, c4, c3]
  · rw [g1]
    simp only [settingsAfter, Option.map_some, v0, c2, h1]
    rw [ofFn_of_getElem? (hl _ c2) c6]
  · unfold ModelSettings.s20Now settingsAfter
    dsimp only
    rcases vS with ⟨e1, e2⟩ | ⟨v, e1, e2, e3⟩
    · rw [if_pos (hal.2 e1), e2, hva]; rfl
    · have hf : ms.s20Alias = false := by
        by_contra hc
        rw [hal.1 (by simpa using hc)] at e1; cases e1
      obtain ⟨v', d1, d2⟩ := c8 hf
      rw [h3, d1] at e1; cases e1
      rw [if_neg (by simp [hf]), e3, ofFn_of_getElem? hl' d2]
  · rw [g3]
    change ms.s20Alias = true ↔ _
    rw [hal]
    rcases vS with ⟨e1, e2⟩ | ⟨v, e1, e2, e3⟩
    · simp [e1, e2]
    · simp [e1, Ne.symm e2]
  · intro b hb
    rw [g3] at hb; cases hb
    rw [g1, g2]; exact ⟨by simpa using nN, by simpa using n0⟩
  · intro b arr hb harr
    rw [g3] at hb; cases hb
    rw [va] at harr; cases harr; exact .inl rfl

/-! ### the updates -/

theorem ofFn_update (v : Vec F m) (j : Fin m) (x : F) :
    List.ofFn (Function.update v j x) = (List.ofFn v).set j x := by
  apply List.ext_getElem?
  intro i
  rw [List.getElem?_set]
  by_cases hi : i < m
  · by_cases hj : (j : ℕ) = i
    · subst hj; simp
    · have : (⟨i, hi⟩ : Fin m) ≠ j := fun e => hj (by rw [← e])
      simp [hj, hi, Function.update_of_ne this]
  · have hj : (j : ℕ) ≠ i := fun e => hi (e ▸ j.2)
    simp [hj, hi]

theorem pyGet_ofFn (v : Vec F m) (j : Fin m) : pyGet (List.ofFn v) j = .ok (v j) := by
  rw [pyGet_ok]; simp

theorem shareStep_agree {toInt : F → Except PyErr ℤ} {G : Rng σ F} {fuel : ℕ} {s : SharedSettings}
    {ss : Vec F m} {st : Heap F} {M M' : ErrModel F m} {r r' : σ} {jj : Fin m} {a0 aN a : ℕ}
    (hs : s.N0 = some a0 ∧ s.N = some aN ∧ s.sigma2 = some a)
    (H : HoldsModel st s M) (h : sigmaStep G fuel ss (M, r) jj = .ok (M', r')) :
    ∃ st', shareStep toInt G fuel a0 s.S20 aN a ss (st, r) jj = .ok (st', r') ∧ HoldsModel st' s M' := by
  obtain ⟨b0, bN, b, g1, g2, g3, n0, nN, v0, vN, va, vS⟩ := H.ex
  rw [hs.1] at g1; rw [hs.2.1] at g2; rw [hs.2.2] at g3
  cases g1; cases g2; cases g3
  unfold sigmaStep at h
  obtain ⟨Nj, h1, h⟩ := bind_ok.1 h
  obtain ⟨⟨g, r1⟩, h2, h⟩ := bind_ok.1 h
  cases h
  have hlt := (List.getElem?_eq_some_iff.1 va).1
  have hvals : st.vals a = List.ofFn M.sigma2 := by rw [Heap.vals, va]; rfl
  have hS : pyGet (st.vals s.S20) jj = .ok (M.s20 jj) := by
    unfold ErrModel.s20
    rcases vS with ⟨e1, e2⟩ | ⟨v, e1, -, e2⟩
    · rw [e1, e2, hvals, pyGet_ofFn]
    · rw [e1, e2, pyGet_ofFn]
  have hput : Heap.put toInt st a jj (lit 1 / g) =
      .ok (st.set a ⟨false, List.ofFn (Function.update M.sigma2 jj (lit 1 / g))⟩) := by
    unfold Heap.put NArr.put
    rw [pyGet_ok.2 va]
    simp only [ok_bind, storeNumber, Bool.false_eq_true, if_false]
    rw [pySet_ok.2 ⟨by simp, rfl⟩, ok_bind, ofFn_update]
    rfl
  refine ⟨_, ?_, ⟨a0, aN, a, hs.1, hs.2.1, hs.2.2, n0, nN, ?_, ?_, List.getElem?_set_self hlt, ?_⟩⟩
  · unfold shareStep
    dsimp only
    rw [v0, vN, pyGet_ofFn, ok_bind, h1, ok_bind, hS, ok_bind, h2, ok_bind]
    dsimp only
    rw [hput, ok_bind]
  · rw [vals_set_ne n0]; exact v0
  · rw [vals_set_ne nN]; exact vN
  · rcases vS with ⟨e1, e2⟩ | ⟨v, e1, e2, e3⟩
    · exact .inl ⟨e1, e2⟩
    · exact .inr ⟨v, e1, e2, by rw [vals_set_ne e2]; exact e3⟩

theorem shareFold_agree {toInt : F → Except PyErr ℤ} {G : Rng σ F} {fuel : ℕ} {s : SharedSettings}
    {ss : Vec F m} {a0 aN a : ℕ} (hs : s.N0 = some a0 ∧ s.N = some aN ∧ s.sigma2 = some a) :
    ∀ {l : List (Fin m)} {st : Heap F} {M M' : ErrModel F m} {r r' : σ}, HoldsModel st s M →
    l.foldlM (sigmaStep G fuel ss) (M, r) = .ok (M', r') →
    ∃ st', l.foldlM (shareStep toInt G fuel a0 s.S20 aN a ss) (st, r) = .ok (st', r') ∧ HoldsModel st' s M'
  | [], st, M, M', r, r', H, h => by cases h; exact ⟨st, rfl, H⟩
  | j :: l, st, M, M', r, r', H, h => by
    rw [List.foldlM_cons] at h
    obtain ⟨⟨M1, r1⟩, h1, h⟩ := bind_ok.1 h
    obtain ⟨st1, e1, H1⟩ := shareStep_agree (toInt := toInt) hs H h1
    obtain ⟨st2, e2, H2⟩ := shareFold_agree hs H1 h
    refine ⟨st2, ?_, H2⟩
    rw [List.foldlM_cons, e1, ok_bind, e2]

theorem shareUpdate_agree {toInt : F → Except PyErr ℤ} {G : Rng σ F} {fuel : ℕ} {s : SharedSettings}
    {ss : Vec F m} {st : Heap F} {M M' : ErrModel F m} {r r' : σ}
    (H : HoldsModel st s M) (h : updateErrorVariance G fuel ss M r = .ok (M', r')) :
    ∃ st', shareUpdate toInt G fuel s ss st r = .ok (st', r') ∧ HoldsModel st' s M' := by
  obtain ⟨a0, aN, a, g1, g2, g3, -⟩ := H.ex
  obtain ⟨st', e, H'⟩ := shareFold_agree (toInt := toInt) ⟨g1, g2, g3⟩ H h
  refine ⟨st', ?_, H'⟩
  unfold shareUpdate
  rw [g1, g2, g3]
  exact e

theorem shareUpdates_concat {toInt : F → Except PyErr ℤ} {G : Rng σ F} {fuel : ℕ} {s : SharedSettings}
    {calls : List (Vec F m × σ)} {c : Vec F m × σ} {st st1 st2 : Heap F} {r' : σ}
    (h1 : shareUpdates toInt G fuel s calls st = .ok st1)
    (h2 : shareUpdate toInt G fuel s c.1 st1 c.2 = .ok (st2, r')) :
    shareUpdates toInt G fuel s (calls ++ [c]) st = .ok st2 := by
  unfold shareUpdates at h1 ⊢
  rw [List.foldlM_append, h1, ok_bind, List.foldlM_cons, h2]
  rfl

/-- Invariant of the loop: the updates so far on the arrays have led to the numbers of the error model. -/
structure ShareInv {n : ℕ} (toInt : F → Except PyErr ℤ) (E : Env F σ N n m) (M0 : ErrModel F m) (st0 : Heap F)
    (sh : SharedSettings) (i : ℕ) (s : SimState F σ N n m) : Prop where
  idx : s.chainIndex + 1 = i
  fixed : s.errModel.N0 = M0.N0 ∧ s.errModel.N = M0.N ∧ s.errModel.S20 = M0.S20
  last : ∃ c, s.s2chain = some c ∧ c.length = s.sschain.length ∧ c[s.chainIndex]? = some s.errModel.sigma2
  run : ∃ (calls : List (Vec F m × σ)) (st : Heap F), calls.length + 1 = i ∧
    shareUpdates toInt E.rng E.fuel sh calls st0 = .ok st ∧ HoldsModel st sh s.errModel ∧
    ∀ k, k + 1 < i → ∃ c, calls[k]? = some c ∧ s.sschain[k + 1]? = some c.1

theorem ShareInv.step {n : ℕ} {toInt : F → Except PyErr ℤ} {E : Env F σ N n m} {M0 : ErrModel F m}
    {st0 : Heap F} {sh : SharedSettings} {i : ℕ} {s s' : SimState F σ N n m} {p : Proposal F σ N n m}
    (hu : E.opts.updatesigma = true) (h : ShareInv toInt E M0 st0 sh i s) (hp : StepSpec E i s s' p) :
    ShareInv toInt E M0 st0 sh (i + 1) s' := by
  have he := hp.errModel
  rw [if_pos hu] at he
  obtain ⟨c, r, e1, e2, e3, e4, -⟩ := he
  obtain ⟨c', f1, f2, f3⟩ := h.last
  rw [e1] at f1; cases f1
  obtain ⟨calls, st, g1, g2, g3, g4⟩ := h.run
  obtain ⟨st', k1, k2⟩ := shareUpdate_agree (toInt := toInt) g3 e4
  have hidx := h.idx
  obtain ⟨u1, u2, u3, -⟩ := updateErrorVariance_ok e4
  refine ⟨by rw [hp.idx, h.idx], ⟨u1.trans h.fixed.1, u2.trans h.fixed.2.1, u3.trans h.fixed.2.2⟩,
    ⟨_, e3, ?_, ?_⟩, calls ++ [((currentSet s p).ss, p.world.rng)], st', ?_,
    shareUpdates_concat g2 k1, k2, fun k hk => ?_⟩
  · rw [hp.sschain]; simpa using f2
  · rw [hp.idx, List.getElem?_set_self e2]
  · simp; omega
  · rw [hp.sschain]
    by_cases hk' : k + 1 < i
    · obtain ⟨c0, d1, d2⟩ := g4 k hk'
      refine ⟨c0, ?_, ?_⟩
      · rw [List.getElem?_append_left (by omega)]; exact d1
      · rw [List.getElem?_set_ne (by omega)]; exact d2
    · have hk2 : k = s.chainIndex := by omega
      subst hk2
      refine ⟨((currentSet s p).ss, p.world.rng), ?_, List.getElem?_set_self hp.lt'⟩
      rw [List.getElem?_append_right (by omega), show s.chainIndex - calls.length = 0 by omega]; rfl

/-- A run from scratch on values is a run on the arrays: when the arrays show the settings, the checks and the updates
on the arrays succeed with the sums of squares of the run, and at the end the array of `sigma2` has the last row of
the error-variance chain. -/
theorem run_shared (toInt : F → Except PyErr ℤ) {U : UserFuns F N (nS flags) m} {o : Obj F flags m} {G : Rng σ F}
    {L : Lapack F} {fuel : ℕ} {rng : σ} {out : RunOut F σ flags m} {st : Heap F} {s : SharedSettings}
    (h : runSimulation U G L fuel o rng false = .ok out)
    (hu : o.ms.N0.isSome ∨ o.opts.updatesigma = true) (H : ShowsSettings st s o.ms) :
    ∃ calls st' s' c row a, shareRun toInt G fuel o.data.n o.data.nbatch s calls st = .ok (st', s') ∧
      (calls.length : ℤ) + 1 = o.opts.nsimu ∧ calls.map Prod.fst = out.results.sschain.tail ∧
      out.results.s2chain = some c ∧ c.getLast? = some row ∧ s'.sigma2 = some a ∧ st'.vals a = List.ofFn row ∧
      ShowsSettings st' s' out.obj.ms := by
  obtain ⟨ms1, a1, a2, a3⟩ := run_settings h
  obtain ⟨st1, s1, b1, H1⟩ := shareDependent_agree H a1
  obtain ⟨st2, s2, b2, -, H2, H3, H4⟩ := shareWrtNsos_agree H1 a2 a3
  obtain ⟨o1, I, s0, h1, h2, h3, h4, h5⟩ := runSimulation_ok h
  obtain ⟨hst, hn, hidx, -, hss, hs2, -⟩ := setup_fresh h1
  have hopt : I.opts.updatesigma = true := by
    have : I.opts.updatesigma = if o.ms.N0.isSome then true else o.opts.updatesigma := by
      rw [hst.init.opts, hst.opts, hst.ms]; rfl
    rw [this]; rcases hu with h | h <;> simp [h]
  have hns : I.opts.nsimu = o.opts.nsimu := by rw [hst.init.opts, hst.opts]; rfl
  rw [if_pos hopt] at hs2
  have hpos : 0 < I.opts.nsimu.toNat := by omega
  rw [h4, ← hst.errModel] at H2
  obtain ⟨hn', t1, hP, hfin⟩ := executeSimulator_inv
    (E := ⟨I.problem, G, L, runOpts I.opts o1.extra, fuel⟩)
    (P := fun i a => ShareInv toInt ⟨I.problem, G, L, runOpts I.opts o1.extra, fuel⟩ s0.errModel st2 s2 i a
      ∧ a.sschain.length = I.opts.nsimu.toNat)
    ⟨⟨by change s0.chainIndex + 1 = 1; omega, ⟨rfl, rfl, rfl⟩, ⟨_, hs2, by
        change _ = s0.sschain.length
        rw [hss]; simp [zeroRows], by
        change _[s0.chainIndex]? = some s0.errModel.sigma2
        rw [hidx, hst.errModel]; simp [zeroRows, hpos]⟩,
      ⟨[], st2, rfl, rfl, H2, fun k hk => by omega⟩⟩, by
        change s0.sschain.length = _
        rw [hss]; simp [zeroRows]⟩
    (fun i a b p hi _ hP hp => ⟨hP.1.step hopt hp, by rw [hp.sschain]; simpa using hP.2⟩) h2
  obtain ⟨hP, hlen⟩ := hP
  obtain ⟨c, f1, f2, f3⟩ := hP.last
  obtain ⟨calls, st3, g1, g2, g3, g4⟩ := hP.run
  obtain ⟨_, _, _, _, _, _, r1, r2, _⟩ := generateResults_ok h3
  have e1 : out.final.sschain = t1.sschain := by rw [hfin]
  have e2 : out.final.s2chain = t1.s2chain := by rw [hfin]
  have e3 : out.final.errModel = t1.errModel := by rw [hfin]
  have hnn : (runOpts I.opts o1.extra).nsimu = I.opts.nsimu.toNat := rfl
  simp only [hnn] at g1 g4
  have hidx1 := hP.idx
  simp only [hnn] at hidx1
  obtain ⟨a0, aN, a, d1, d2, d3, -, -, -, -, d8, -⟩ := g3.ex
  refine ⟨calls, st3, s2, c, t1.errModel.sigma2, a, ?_, by omega, ?_, by rw [r2, e2]; exact f1, ?_, d3, ?_,
    ?_⟩
  · unfold shareRun
    rw [b1, ok_bind]
    dsimp only
    rw [b2, ok_bind]
    dsimp only
    rw [g2, ok_bind]
  · rw [r1, e1]
    apply List.ext_getElem?
    intro k
    rw [List.getElem?_map, List.getElem?_tail]
    by_cases hk : k + 1 < I.opts.nsimu.toNat
    · obtain ⟨c0, q1, q2⟩ := g4 k hk
      rw [q1, q2]; rfl
    · rw [List.getElem?_eq_none (by omega), List.getElem?_eq_none (by omega)]; rfl
  · rw [List.getLast?_eq_getElem?, f2, hlen, show I.opts.nsimu.toNat - 1 = t1.chainIndex by omega]
    exact f3
  · rw [Heap.vals, d8]; rfl
  · rw [h5]
    obtain ⟨hlen3, -⟩ := shareUpdates_frame d3 g2
    rw [h4] at a2 a3 H3
    obtain ⟨S20, f1, n0, N0, f2, sg, sigma2, f3, N1, N2, k1, k2, k3, k4, k5, k6, k7, hms⟩ := checkWrtNsos_ok a2
    refine HoldsModel.shows (M0 := I.errModel) (by rw [e3]; exact g3) H3 (by rw [hlen3]; exact H4) ?_ ?_ a3 ?_ ?_ ?_
    · intro l hl
      rw [hms] at hl; cases hl
      exact checkSizeOfSetting_length k3
    · rw [hms]; exact checkSizeOfSetting_length k1
    · rw [e3, hP.fixed.1, hst.errModel]
    · rw [e3, hP.fixed.2.1, hst.errModel]
    · rw [e3, hP.fixed.2.2, hst.errModel]

/-- an array of two or more variances stays the array of the settings object -/
theorem shareRun_keeps {toInt : F → Except PyErr ℤ} {G : Rng σ F} {fuel : ℕ} {n : List ℕ} {b : ℕ}
    {s s' : SharedSettings} {calls : List (Vec F m × σ)} {st st' : Heap F}
    (h : shareRun toInt G fuel n b s calls st = .ok (st', s')) {c : ℕ} (hc : c < st.length)
    (hs : s.sigma2 = some c) (hl : (st.vals c).length ≠ 1) : s'.sigma2 = some c := by
  obtain ⟨st1, s1, st2, h1, h2, h3⟩ := shareRun_ok h
  obtain ⟨p1, a, ha, ha'⟩ := shareDependent_ok h1
  rw [hs] at ha'
  have hac : a = c := by
    rcases ha' with ha' | ⟨ha', -⟩
    · cases ha'; rfl
    · cases ha'
  subst hac
  obtain ⟨t1, t2, t3, b0, a', bN, S20, N0, sg, Nn, q1, -, q2, q3, q4, -, q5, rfl⟩ := shareWrtNsos_ok h2
  rw [ha] at q3; cases q3
  rw [← vals_prefix (p1.trans ((shareSize_prefix q1).trans (shareSize_prefix q2))) hc] at hl
  rcases shareSize_ok q4 with ⟨e, -⟩ | ⟨-, -, e, -⟩
  · exact absurd e hl
  · rw [e]

end Verif
