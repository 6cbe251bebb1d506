import Verif.Model.SharedArrays
import Verif.Lemmas.SettingsLen

/-! # The arrays of the settings: frames, and agreement with the model on values -/

set_option linter.unusedSectionVars false

namespace Verif
variable {F σ : Type} [PyFloat F] {N m : ℕ}

theorem alloc_eq (st : Heap F) (x : NArr F) : st.alloc x = (st ++ [x], st.length) := rfl

theorem getElem?_prefix {st st' : Heap F} (h : st <+: st') {a : ℕ} (ha : a < st.length) :
    st'[a]? = st[a]? := by
  obtain ⟨l, rfl⟩ := h
  exact List.getElem?_append_left ha

theorem vals_prefix {st st' : Heap F} (h : st <+: st') {a : ℕ} (ha : a < st.length) :
    st'.vals a = st.vals a := by
  unfold Heap.vals; rw [getElem?_prefix h ha]

theorem vals_alloc (st : Heap F) (x : NArr F) : Heap.vals (st ++ [x]) st.length = x.vals := by
  simp [Heap.vals]

/-! ### frames -/

theorem arrayType_ok {st st' : Heap F} {x : SettingArg F} {a : Option ℕ}
    (h : arrayType st x = .ok (st', a)) :
    st <+: st' ∧ ((x = .none ∧ a = none ∧ st' = st) ∨ (∃ b, x = .array b ∧ a = some b ∧ st' = st) ∨
      (a = some st.length ∧ st'.length = st.length + 1)) := by
  cases x <;> simp only [arrayType, alloc_eq] at h <;> cases h
  · exact ⟨List.prefix_rfl, .inl ⟨rfl, rfl, rfl⟩⟩
  · exact ⟨List.prefix_append _ _, .inr (.inr ⟨rfl, by simp⟩)⟩
  · exact ⟨List.prefix_append _ _, .inr (.inr ⟨rfl, by simp⟩)⟩
  · exact ⟨List.prefix_append _ _, .inr (.inr ⟨rfl, by simp⟩)⟩
  · exact ⟨List.prefix_rfl, .inr (.inl ⟨_, rfl, rfl, rfl⟩)⟩

theorem shareSize_ok {st st' : Heap F} {a b : ℕ} (h : shareSize st a m = .ok (st', b)) :
    ((st.vals a).length = 1 ∧ b = st.length ∧
      st' = st ++ [⟨false, List.replicate m (lit 1 * (st.vals a).headD (lit 0))⟩]) ∨
    ((st.vals a).length ≠ 1 ∧ (st.vals a).length = m ∧ b = a ∧ st' = st) := by
  unfold shareSize at h
  split at h
  · rename_i h1
    cases h
    exact .inl ⟨h1, rfl, rfl⟩
  · rename_i h1
    split at h
    · cases h
    · split at h
      · cases h
      · cases h
        exact .inr ⟨h1, by omega, rfl, rfl⟩

theorem shareSize_prefix {st st' : Heap F} {a b : ℕ} (h : shareSize st a m = .ok (st', b)) : st <+: st' := by
  rcases shareSize_ok h with ⟨_, _, rfl⟩ | ⟨_, _, _, rfl⟩
  · exact List.prefix_append _ _
  · exact List.prefix_rfl

theorem shareSizeN_prefix {st st' : Heap F} {a b : ℕ} (h : shareSizeN st a m = .ok (st', b)) : st <+: st' := by
  unfold shareSizeN at h
  obtain ⟨l, -, h⟩ := bind_ok.1 h
  split at h <;> cases h
  · exact List.prefix_append _ _
  · exact List.prefix_rfl

theorem shareWrtNsos_ok {st st' : Heap F} {s s' : SharedSettings} (h : shareWrtNsos st s m = .ok (st', s')) :
    ∃ st1 st2 st3 b0 a bN S20 N0 sg Nn, shareSize st s.S20 m = .ok (st1, S20) ∧
      s.N0 = some b0 ∧ shareSize st1 b0 m = .ok (st2, N0) ∧
      s.sigma2 = some a ∧ shareSize st2 a m = .ok (st3, sg) ∧
      s.N = some bN ∧ shareSizeN st3 bN m = .ok (st', Nn) ∧
      s' = ⟨some sg, some Nn, some N0, s.nbatch, S20⟩ := by
  unfold shareWrtNsos at h
  obtain ⟨⟨st1, S20⟩, h1, h⟩ := bind_ok.1 h
  obtain ⟨b0, h2, h⟩ := bind_ok.1 h
  obtain ⟨⟨st2, N0⟩, h3, h⟩ := bind_ok.1 h
  obtain ⟨a, h4, h⟩ := bind_ok.1 h
  obtain ⟨⟨st3, sg⟩, h5, h⟩ := bind_ok.1 h
  obtain ⟨bN, h6, h⟩ := bind_ok.1 h
  obtain ⟨⟨st4, Nn⟩, h7, h⟩ := bind_ok.1 h
  cases h
  exact ⟨st1, st2, st3, b0, a, bN, S20, N0, sg, Nn, h1, orRaise_ok.1 h2, h3, orRaise_ok.1 h4, h5,
    orRaise_ok.1 h6, h7, rfl⟩

theorem shareDefaults_ok (st : Heap F) (sg N0 : Option ℕ) :
    st <+: (shareDefaults st sg N0).1 ∧
    (∀ a, sg = some a → (shareDefaults st sg N0).2.1 = some a) ∧
    (∀ a, (shareDefaults st sg N0).2.1 = some a →
      sg = some a ∨ (sg = none ∧ st.length ≤ a ∧ a < (shareDefaults st sg N0).1.length)) ∧
    (N0 = some (shareDefaults st sg N0).2.2 ∨ (N0 = none ∧ st.length ≤ (shareDefaults st sg N0).2.2)) := by
  cases N0 <;> cases sg <;> simp [shareDefaults]

theorem shareSigma2_ok (st : Heap F) (sg : Option ℕ) (nb : ℕ) :
    st <+: (shareSigma2 st sg nb).1 ∧
    (sg = some (shareSigma2 st sg nb).2 ∨
      (sg = none ∧ (shareSigma2 st sg nb).2 = st.length ∧ (shareSigma2 st sg nb).1.length = st.length + 1)) := by
  cases sg <;> simp [shareSigma2, alloc_eq]

/-- the new arrays and the addresses after the first check -/
theorem shareDependent_ok {st st' : Heap F} {s s' : SharedSettings} {n : List ℕ} {b : ℕ}
    (h : shareDependent st s n b = .ok (st', s')) :
    st <+: st' ∧ ∃ a, s'.sigma2 = some a ∧ (s.sigma2 = some a ∨ (s.sigma2 = none ∧ st.length ≤ a)) := by
  unfold shareDependent at h
  obtain ⟨aN, -, h⟩ := bind_ok.1 h
  have h := (Except.ok.inj h).symm
  obtain ⟨p, hp⟩ : ∃ p, p = st.alloc ⟨true, n.map fun k : ℕ => ofInt k⟩ := ⟨_, rfl⟩
  rw [← hp] at h
  obtain ⟨d1, d2, d3, -⟩ := shareDefaults_ok p.1 s.sigma2 s.N0
  obtain ⟨q1, q2⟩ := shareSigma2_ok (shareDefaults p.1 s.sigma2 s.N0).1 (shareDefaults p.1 s.sigma2 s.N0).2.1
    (s.nbatch.getD b)
  have hpl : p.1.length = st.length + 1 := by simp [hp, alloc_eq]
  have hpp : st <+: p.1 := ⟨_, by rw [hp, alloc_eq]⟩
  rw [(Prod.mk.inj h).1, (Prod.mk.inj h).2]
  refine ⟨hpp.trans (d1.trans q1), _, rfl, ?_⟩
  rcases q2 with q2 | ⟨q2, q3, -⟩
  · rcases d3 _ q2 with d3 | ⟨d3, d4, -⟩
    · exact .inl d3
    · exact .inr ⟨d3, by omega⟩
  · have := d1.length_le
    refine .inr ⟨?_, by omega⟩
    cases hs : s.sigma2 with
    | none => rfl
    | some a => rw [d2 a hs] at q2; cases q2

/-- the store keeps its earlier arrays, and the array to be written to is new or the one of the settings -/
theorem share_setup {st st1 st2 : Heap F} {s s1 s2 : SharedSettings} {n : List ℕ} {b : ℕ}
    (h1 : shareDependent st s n b = .ok (st1, s1)) (h2 : shareWrtNsos st1 s1 m = .ok (st2, s2)) :
    st <+: st2 ∧ ∃ a, s2.sigma2 = some a ∧
      (st.length ≤ a ∨ (s.sigma2 = some a ∧ (st1.vals a).length = m ∧ m ≠ 1)) := by
  obtain ⟨p1, a, ha, ha'⟩ := shareDependent_ok h1
  obtain ⟨t1, t2, t3, b0, a', bN, S20, N0, sg, Nn, q1, -, q2, q3, q4, -, q5, rfl⟩ := shareWrtNsos_ok h2
  rw [ha] at q3; cases q3
  have hp2 : st1 <+: t2 := (shareSize_prefix q1).trans (shareSize_prefix q2)
  refine ⟨p1.trans (hp2.trans ((shareSize_prefix q4).trans (shareSizeN_prefix q5))), sg, rfl, ?_⟩
  rcases shareSize_ok q4 with ⟨-, e0, -⟩ | ⟨e1, e2, e3, -⟩
  · rw [e0]; exact .inl (p1.length_le.trans hp2.length_le)
  · subst e3
    rcases ha' with ha' | ⟨-, ha'⟩
    · by_cases hlt : sg < st1.length
      · rw [vals_prefix hp2 hlt] at e1 e2
        exact .inr ⟨ha', e2, e2 ▸ e1⟩
      · exact .inl (p1.length_le.trans (by omega))
    · exact .inl ha'

theorem put_ok {toInt : F → Except PyErr ℤ} {st st' : Heap F} {a j : ℕ} {x : F}
    (h : st.put toInt a j x = .ok st') :
    ∃ arr y, st[a]? = some arr ∧ j < arr.vals.length ∧
      (if arr.ints then ∃ k, toInt x = .ok k ∧ y = ofInt k else y = x) ∧
      st' = st.set a { arr with vals := arr.vals.set j y } := by
  unfold Heap.put NArr.put at h
  obtain ⟨arr, h1, h⟩ := bind_ok.1 h
  obtain ⟨arr', h2, h⟩ := bind_ok.1 h
  obtain ⟨y, h3, h2⟩ := bind_ok.1 h2
  obtain ⟨v, h4, h2⟩ := bind_ok.1 h2
  rw [pySet_ok] at h4
  obtain ⟨h4, rfl⟩ := h4
  cases h2
  cases h
  refine ⟨arr, y, pyGet_ok.1 h1, h4, ?_, rfl⟩
  unfold storeNumber at h3
  split at h3
  · rename_i hi
    rw [if_pos hi]
    cases hk : toInt x with
    | error e => rw [hk] at h3; cases h3
    | ok k => rw [hk] at h3; cases h3; exact ⟨k, rfl, rfl⟩
  · rename_i hi
    rw [if_neg hi]
    cases h3; rfl

/-- stored the way the array stores numbers -/
def StoredAs (toInt : F → Except PyErr ℤ) (ints : Bool) (x y : F) : Prop :=
  if ints then ∃ k, toInt x = .ok k ∧ y = ofInt k else y = x

theorem shareStep_ok {toInt : F → Except PyErr ℤ} {G : Rng σ F} {fuel : ℕ} {N0 S20 Nn sg : ℕ} {ss : Vec F m}
    {st st' : Heap F} {r r' : σ} {jj : Fin m}
    (h : shareStep toInt G fuel N0 S20 Nn sg ss (st, r) jj = .ok (st', r')) :
    ∃ arr x y n0 Nj s20, st[sg]? = some arr ∧ (jj : ℕ) < arr.vals.length ∧
      (st.vals N0)[(jj : ℕ)]? = some n0 ∧ (st.vals Nn)[(jj : ℕ)]? = some Nj ∧
      (st.vals S20)[(jj : ℕ)]? = some s20 ∧
      DrawnFrom G fuel n0 Nj s20 (ss jj) x ∧ StoredAs toInt arr.ints x y ∧
      st' = st.set sg { arr with vals := arr.vals.set jj y } := by
  unfold shareStep at h
  obtain ⟨n0, h1, h⟩ := bind_ok.1 h
  obtain ⟨Nj, h2, h⟩ := bind_ok.1 h
  obtain ⟨s20, h3, h⟩ := bind_ok.1 h
  obtain ⟨⟨g, r1⟩, h4, h⟩ := bind_ok.1 h
  obtain ⟨st1, h5, h⟩ := bind_ok.1 h
  cases h
  obtain ⟨arr, y, e1, e2, e3, e4⟩ := put_ok h5
  exact ⟨arr, _, y, n0, Nj, s20, e1, e2, pyGet_ok.1 h1, pyGet_ok.1 h2, pyGet_ok.1 h3, ⟨r, g, _, h4, rfl⟩, e3, e4⟩

theorem vals_set_ne {st : Heap F} {a b : ℕ} {x : NArr F} (h : b ≠ a) :
    Heap.vals (st.set a x) b = st.vals b := by
  simp [Heap.vals, List.getElem?_set_ne h.symm]

/-- entries of other positions are as before, for every array -/
theorem vals_step {st : Heap F} {sg : ℕ} {arr : NArr F} (h : st[sg]? = some arr) (j : ℕ) (y : F) (b k : ℕ)
    (hk : k ≠ j) :
    (Heap.vals (st.set sg { arr with vals := arr.vals.set j y }) b)[k]? = (st.vals b)[k]? := by
  by_cases hb : b = sg
  · subst hb
    have hlt := (List.getElem?_eq_some_iff.1 h).1
    simp only [Heap.vals, List.getElem?_set_self hlt, h, Option.map_some, Option.getD_some]
    rw [List.getElem?_set_ne hk.symm]
  · rw [vals_set_ne hb]

theorem shareFold_ok {toInt : F → Except PyErr ℤ} {G : Rng σ F} {fuel : ℕ} {N0 S20 Nn sg : ℕ} {ss : Vec F m} :
    ∀ {l : List (Fin m)} {st st' : Heap F} {r r' : σ}, l.Nodup →
    l.foldlM (shareStep toInt G fuel N0 S20 Nn sg ss) (st, r) = .ok (st', r') →
    st'.length = st.length ∧ (∀ b, b ≠ sg → st'[b]? = st[b]?) ∧
    (∀ arr, st[sg]? = some arr → ∃ arr', st'[sg]? = some arr' ∧ arr'.ints = arr.ints ∧
      arr'.vals.length = arr.vals.length ∧ (∀ k : ℕ, (∀ j ∈ l, (j : ℕ) ≠ k) → arr'.vals[k]? = arr.vals[k]?)) ∧
    ∀ j ∈ l, ∃ arr x y n0 Nj s20, st[sg]? = some arr ∧
      (st.vals N0)[(j : ℕ)]? = some n0 ∧ (st.vals Nn)[(j : ℕ)]? = some Nj ∧
      (st.vals S20)[(j : ℕ)]? = some s20 ∧
      DrawnFrom G fuel n0 Nj s20 (ss j) x ∧ StoredAs toInt arr.ints x y ∧ (st'.vals sg)[(j : ℕ)]? = some y
  | [], st, st', r, r', _, h => by
    cases h
    exact ⟨rfl, fun _ _ => rfl, fun arr h => ⟨arr, h, rfl, rfl, fun _ _ => rfl⟩, by simp⟩
  | jj :: l, st, st', r, r', hl, h => by
    rw [List.foldlM_cons] at h
    obtain ⟨⟨st1, r1⟩, h1, h⟩ := bind_ok.1 h
    obtain ⟨arr, x, y, n0, Nj, s20, a1, a2, a3, a4, a5, a6, a7, rfl⟩ := shareStep_ok h1
    obtain ⟨b1, b2, b3, b4⟩ := shareFold_ok (List.nodup_cons.1 hl).2 h
    have hnot := (List.nodup_cons.1 hl).1
    have hlt := (List.getElem?_eq_some_iff.1 a1).1
    obtain ⟨arr', c1, c2, c3, c4⟩ := b3 _ (List.getElem?_set_self hlt)
    refine ⟨by simpa using b1, fun b hb => ?_, fun arr0 h0 => ?_, fun j hj => ?_⟩
    · rw [b2 b hb, List.getElem?_set_ne hb.symm]
    · rw [a1] at h0; cases h0
      refine ⟨arr', c1, c2, by simpa using c3, fun k hk => ?_⟩
      rw [c4 k fun j hj => hk j (List.mem_cons_of_mem _ hj)]
      exact List.getElem?_set_ne (hk jj (by simp))
    · rcases List.mem_cons.1 hj with rfl | hj
      · refine ⟨arr, x, y, n0, Nj, s20, a1, a3, a4, a5, a6, a7, ?_⟩
        rw [Heap.vals, c1, Option.map_some, Option.getD_some,
          c4 _ fun i hi h => hnot (by rw [← Fin.ext h]; exact hi)]
        exact List.getElem?_set_self a2
      · have hne : (j : ℕ) ≠ jj := fun h => hnot (by rw [← Fin.ext h]; exact hj)
        obtain ⟨arr1, x1, y1, n1, N1, s1, d1, d2, d3, d4, d5, d6, d7⟩ := b4 j hj
        rw [vals_step a1 _ _ _ _ hne] at d2 d3 d4
        rw [List.getElem?_set_self hlt] at d1
        cases d1
        exact ⟨arr, x1, y1, n1, N1, s1, a1, d2, d3, d4, d5, d6, d7⟩

/-- One call of `update_error_variance`: only the array of `sigma2` changes, it keeps its number type and length, and
its first entries are draws with the numbers that were there before. -/
theorem shareUpdate_ok {toInt : F → Except PyErr ℤ} {G : Rng σ F} {fuel : ℕ} {s : SharedSettings} {ss : Vec F m}
    {st st' : Heap F} {r r' : σ} (h : shareUpdate toInt G fuel s ss st r = .ok (st', r')) :
    ∃ a0 aN a, s.N0 = some a0 ∧ s.N = some aN ∧ s.sigma2 = some a ∧
    st'.length = st.length ∧ (∀ b, b ≠ a → st'[b]? = st[b]?) ∧
    (∀ arr, st[a]? = some arr → ∃ arr', st'[a]? = some arr' ∧ arr'.ints = arr.ints ∧
      arr'.vals.length = arr.vals.length) ∧
    ∀ j : Fin m, ∃ arr x y n0 Nj s20, st[a]? = some arr ∧
      (st.vals a0)[(j : ℕ)]? = some n0 ∧ (st.vals aN)[(j : ℕ)]? = some Nj ∧
      (st.vals s.S20)[(j : ℕ)]? = some s20 ∧
      DrawnFrom G fuel n0 Nj s20 (ss j) x ∧ StoredAs toInt arr.ints x y ∧ (st'.vals a)[(j : ℕ)]? = some y := by
  unfold shareUpdate at h
  obtain ⟨a0, h1, h⟩ := bind_ok.1 h
  obtain ⟨aN, h2, h⟩ := bind_ok.1 h
  obtain ⟨a, h3, h⟩ := bind_ok.1 h
  obtain ⟨b1, b2, b3, b4⟩ := shareFold_ok (List.nodup_finRange m) h
  refine ⟨a0, aN, a, orRaise_ok.1 h1, orRaise_ok.1 h2, orRaise_ok.1 h3, b1, b2, fun arr ha => ?_,
    fun j => b4 j (List.mem_finRange j)⟩
  obtain ⟨arr', c1, c2, c3, -⟩ := b3 arr ha
  exact ⟨arr', c1, c2, c3⟩

theorem shareUpdates_frame {toInt : F → Except PyErr ℤ} {G : Rng σ F} {fuel : ℕ} {s : SharedSettings} {a : ℕ}
    (ha : s.sigma2 = some a) : ∀ {calls : List (Vec F m × σ)} {st st' : Heap F},
    shareUpdates toInt G fuel s calls st = .ok st' →
    st'.length = st.length ∧ (∀ b, b ≠ a → st'[b]? = st[b]?) ∧
    ∀ arr, st[a]? = some arr → ∃ arr', st'[a]? = some arr' ∧ arr'.ints = arr.ints ∧
      arr'.vals.length = arr.vals.length
  | [], st, st', h => by cases h; exact ⟨rfl, fun _ _ => rfl, fun arr h => ⟨arr, h, rfl, rfl⟩⟩
  | c :: calls, st, st', h => by
    unfold shareUpdates at h
    rw [List.foldlM_cons] at h
    obtain ⟨st1, h1, h⟩ := bind_ok.1 h
    obtain ⟨b1, b2, b3⟩ := shareUpdates_frame ha h
    cases hu : shareUpdate toInt G fuel s c.1 st c.2 with
    | error e => rw [hu] at h1; cases h1
    | ok p =>
      rw [hu] at h1; cases h1
      obtain ⟨a0, aN, a', -, -, e3, c1, c2, c3, -⟩ := shareUpdate_ok (r' := p.2) hu
      rw [ha] at e3; cases e3
      refine ⟨b1.trans c1, fun b hb => (b2 b hb).trans (c2 b hb), fun arr h => ?_⟩
      obtain ⟨arr1, d1, d2, d3⟩ := c3 arr h
      obtain ⟨arr2, f1, f2, f3⟩ := b3 arr1 d1
      exact ⟨arr2, f1, f2.trans d2, f3.trans d3⟩

theorem shareRun_ok {toInt : F → Except PyErr ℤ} {G : Rng σ F} {fuel : ℕ} {n : List ℕ} {b : ℕ}
    {s s' : SharedSettings} {calls : List (Vec F m × σ)} {st st' : Heap F}
    (h : shareRun toInt G fuel n b s calls st = .ok (st', s')) :
    ∃ st1 s1 st2, shareDependent st s n b = .ok (st1, s1) ∧ shareWrtNsos st1 s1 m = .ok (st2, s') ∧
      shareUpdates toInt G fuel s' calls st2 = .ok st' := by
  unfold shareRun at h
  obtain ⟨⟨st1, s1⟩, h1, h⟩ := bind_ok.1 h
  obtain ⟨⟨st2, s2⟩, h2, h⟩ := bind_ok.1 h
  obtain ⟨st3, h3, h⟩ := bind_ok.1 h
  cases h
  exact ⟨st1, s1, st2, h1, h2, h3⟩

/-- What a run leaves of the arrays that existed before. -/
theorem shareRun_frame {toInt : F → Except PyErr ℤ} {G : Rng σ F} {fuel : ℕ} {n : List ℕ} {b : ℕ}
    {s s' : SharedSettings} {calls : List (Vec F m × σ)} {st st' : Heap F}
    (h : shareRun toInt G fuel n b s calls st = .ok (st', s')) {c : ℕ} (hc : c < st.length)
    (hn : ¬ (s.sigma2 = some c ∧ (st.vals c).length = m ∧ m ≠ 1 ∧ calls ≠ [])) : st'[c]? = st[c]? := by
  obtain ⟨st1, s1, st2, h1, h2, h3⟩ := shareRun_ok h
  obtain ⟨p, a, ha, ha'⟩ := share_setup h1 h2
  rw [← getElem?_prefix p hc]
  by_cases hcalls : calls = []
  · subst hcalls; cases h3; rfl
  obtain ⟨-, g, -⟩ := shareUpdates_frame ha h3
  refine g c fun e => ?_
  subst e
  rcases ha' with ha' | ⟨e1, e2, e3⟩
  · omega
  · obtain ⟨p1, -⟩ := shareDependent_ok h1
    rw [vals_prefix p1 hc] at e2
    exact hn ⟨e1, e2, e3, hcalls⟩

end Verif
