import Std.Data.String.ToNat
import Verif.Model.Settings
import Verif.Spec.Toy

/-! # C159: the table of parameters is what `add_model_parameter` was called with -/

namespace Verif
variable {F : Type} [PyFloat F]

/-- the arguments of one call of `add_model_parameter`, `settings/ModelParameters.py:46-48`; `none` for
a `name` or a `theta0` that is not given -/
structure AddCall (F : Type) where
  name : Option String
  theta0 : Option F
  minimum : F
  maximum : F
  priorMu : F
  priorSigma : F
  sample : Bool
  loc : ℤ
  adapt : Bool

/-- the calls `cs`, in order, on an object whose `parameters` is `ps`; a new object has the empty list
(`settings/ModelParameters.py:41-42`) -/
def addCalls (ps : List (ParamSpec F)) (cs : List (AddCall F)) : List (ParamSpec F) :=
  cs.foldl (fun ps c => addModelParameter ps c.name c.theta0 c.minimum c.maximum c.priorMu c.priorSigma
    c.sample c.loc c.adapt) ps

/-- Calls never change what is already in the table: it is a prefix of the later table, which is longer
by one entry per call. -/
theorem C159_earlier_entries_kept (ps : List (ParamSpec F)) (cs : List (AddCall F)) :
    ps <+: addCalls ps cs ∧ (addCalls ps cs).length = ps.length + cs.length := by
  induction cs generalizing ps with
  | nil => exact ⟨List.prefix_rfl, rfl⟩
  | cons c cs ih =>
    obtain ⟨h1, h2⟩ := ih (addModelParameter ps c.name c.theta0 c.minimum c.maximum c.priorMu
      c.priorSigma c.sample c.loc c.adapt)
    refine ⟨List.IsPrefix.trans ?_ h1, ?_⟩
    · exact List.prefix_append _ _
    · have h3 : (addModelParameter ps c.name c.theta0 c.minimum c.maximum c.priorMu
          c.priorSigma c.sample c.loc c.adapt).length = ps.length + 1 := by simp [addModelParameter]
      rw [addCalls, List.foldl_cons, ← addCalls, h2, h3, List.length_cons]
      omega

/-- Entry `k` of the table of a new object is the `k`-th call: every value is the one given; a missing
initial value is `1.0`, and a missing name is `$p_{k}$`, with `k` the position of the entry. -/
theorem C159_entry_is_its_call (cs : List (AddCall F)) (k : ℕ) (c : AddCall F) (hc : cs[k]? = some c) :
    ∃ p, (addCalls [] cs)[k]? = some p ∧
      (∀ s, c.name = some s → p.name = s) ∧
      (c.name = none → p.name = "$p_{" ++ toString k ++ "}$") ∧
      (∀ v, c.theta0 = some v → p.theta0 = v) ∧
      (c.theta0 = none → p.theta0 = lit 1) ∧
      p.minimum = c.minimum ∧ p.maximum = c.maximum ∧ p.priorMu = c.priorMu ∧
      p.priorSigma = c.priorSigma ∧ p.sample = c.sample ∧ p.loc = c.loc ∧ p.adapt = c.adapt := by
  have hk : k < cs.length := (List.getElem?_eq_some_iff.mp hc).1
  have hsplit : cs = cs.take k ++ c :: cs.drop (k + 1) := by
    have := List.getElem?_eq_some_iff.mp hc
    obtain ⟨h, rfl⟩ := this
    simp
  have hlen : (addCalls ([] : List (ParamSpec F)) (cs.take k)).length = k := by
    rw [(C159_earlier_entries_kept _ _).2]
    simp [Nat.le_of_lt hk]
  set q := addCalls ([] : List (ParamSpec F)) (cs.take k) with hq
  have hfold : addCalls [] cs = addCalls (addModelParameter q c.name c.theta0 c.minimum c.maximum
      c.priorMu c.priorSigma c.sample c.loc c.adapt) (cs.drop (k + 1)) := by
    conv_lhs => rw [hsplit]
    simp only [addCalls, List.foldl_append, List.foldl_cons, hq]
  obtain ⟨t, ht⟩ := (C159_earlier_entries_kept (addModelParameter q c.name c.theta0 c.minimum c.maximum
      c.priorMu c.priorSigma c.sample c.loc c.adapt) (cs.drop (k + 1))).1
  refine ⟨⟨c.name.getD (generateDefaultName q.length), c.theta0.getD (lit 1), c.minimum, c.maximum,
    c.priorMu, c.priorSigma, c.sample, c.loc, c.adapt⟩, ?_, ?_, ?_, ?_, ?_, rfl, rfl, rfl, rfl, rfl,
    rfl, rfl⟩
  · rw [hfold, ← ht]
    simp [addModelParameter, hlen]
  · intro s hs; simp [hs]
  · intro hs; simp [hs, generateDefaultName, hlen]
  · intro v hv; simp [hv]
  · intro hv; simp [hv]

/-- Two parameters added without a name never share one. -/
theorem C159_default_names_differ (cs : List (AddCall F)) (i j : ℕ) (c d : AddCall F)
    (hi : cs[i]? = some c) (hj : cs[j]? = some d) (hc : c.name = none) (hd : d.name = none)
    (p q : ParamSpec F) (hp : (addCalls [] cs)[i]? = some p) (hq : (addCalls [] cs)[j]? = some q)
    (hpq : p.name = q.name) : i = j := by
  obtain ⟨p', e, -, h, -⟩ := C159_entry_is_its_call cs i c hi
  obtain ⟨q', e', -, h', -⟩ := C159_entry_is_its_call cs j d hj
  obtain rfl : p = p' := Option.some.inj (hp.symm.trans e)
  obtain rfl : q = q' := Option.some.inj (hq.symm.trans e')
  rw [h hc, h' hd] at hpq
  have h2 := congrArg String.toList hpq
  simp only [String.toList_append] at h2
  have h3 := List.append_cancel_left (List.append_cancel_right h2)
  exact Nat.repr_injective (String.toList_inj.mp h3)

/-- All names are different, provided the names that are given differ from one another and none of them
has the form of a default name. -/
theorem C159_names_distinct_partial (cs : List (AddCall F))
    (hgiven : ∀ (i j : ℕ) (c d : AddCall F) (s : String), cs[i]? = some c → cs[j]? = some d →
      c.name = some s → d.name = some s → i = j)
    (hform : ∀ c ∈ cs, ∀ k : ℕ, c.name ≠ some ("$p_{" ++ toString k ++ "}$")) :
    ((addCalls [] cs).map ParamSpec.name).Nodup := by
  have hlen : (addCalls ([] : List (ParamSpec F)) cs).length = cs.length := by
    rw [(C159_earlier_entries_kept _ _).2]; simp
  rw [List.nodup_iff_injective_get]
  intro ⟨i, hi⟩ ⟨j, hj⟩ hij
  simp only [List.length_map] at hi hj
  simp only [List.get_eq_getElem, List.getElem_map] at hij
  have hi' : i < cs.length := hlen ▸ hi
  have hj' : j < cs.length := hlen ▸ hj
  have ei : cs[i]? = some cs[i] := List.getElem?_eq_getElem hi'
  have ej : cs[j]? = some cs[j] := List.getElem?_eq_getElem hj'
  obtain ⟨p, e, g, h, -⟩ := C159_entry_is_its_call cs i _ ei
  obtain ⟨q, e', g', h', -⟩ := C159_entry_is_its_call cs j _ ej
  rw [List.getElem?_eq_getElem hi] at e
  rw [List.getElem?_eq_getElem hj] at e'
  rw [Option.some.inj e, Option.some.inj e'] at hij
  rw [Fin.mk.injEq]
  rcases hc : cs[i].name with _ | s <;> rcases hd : cs[j].name with _ | s'
  · exact C159_default_names_differ cs i j _ _ ei ej hc hd p q
      ((List.getElem?_eq_getElem hi).trans e) ((List.getElem?_eq_getElem hj).trans e') hij
  · refine absurd ?_ (hform _ (List.getElem_mem hj') i)
    rw [hd, ← g' _ hd, ← hij, h hc]
  · refine absurd ?_ (hform _ (List.getElem_mem hi') j)
    rw [hc, ← g _ hc, hij, h' hd]
  · refine hgiven i j _ _ s ei ej hc ?_
    rw [hd, ← g' _ hd, ← hij, g _ hc]

/-- The same of the sampled parameters of the run: this is the assumption on names of C28 (continued runs),
so that parameters added with names as above, or all without a name, can be continued. -/
theorem C159_sampled_names_partial (cs : List (AddCall F))
    (hgiven : ∀ (i j : ℕ) (c d : AddCall F) (s : String), cs[i]? = some c → cs[j]? = some d →
      c.name = some s → d.name = some s → i = j)
    (hform : ∀ c ∈ cs, ∀ k : ℕ, c.name ≠ some ("$p_{" ++ toString k ++ "}$"))
    (flags : Fin cs.length → Bool) (specs : Fin cs.length → ParamSpec F)
    (hs : ∀ k, (addCalls [] cs)[k.val]? = some (specs k)) :
    (((List.finRange cs.length).filter flags).map fun k => (specs k).name).Nodup := by
  refine List.Nodup.map ?_ ((List.nodup_finRange _).filter _)
  intro i j hij
  have h := C159_names_distinct_partial cs hgiven hform
  have e : ∀ k : Fin cs.length, ((addCalls [] cs).map ParamSpec.name)[k.val]? = some (specs k).name := by
    intro k; rw [List.getElem?_map, hs k]; rfl
  have hi := (List.getElem?_eq_some_iff.mp (e i)).1
  exact Fin.ext ((List.getElem?_inj hi h).mp (by rw [e i, e j]; exact congrArg some hij))

/-- the defaults of the signature, `settings/ModelParameters.py:46-48`, with the given name and
initial value -/
def Toy.call (name : Option String) (theta0 : Option ℚ) : AddCall ℚ :=
  ⟨name, theta0, -1000000, 1000000, 0, 1000000, true, 0, true⟩

/-- Without that proviso names can repeat: a user who names a parameter `$p_{1}$` and adds the next one
without a name has two parameters of the same name, and nothing is raised. -/
theorem C159_collision_refuted :
    ∃ cs : List (AddCall ℚ),
      (∀ (i j : ℕ) (c d : AddCall ℚ) (s : String), cs[i]? = some c →
        cs[j]? = some d → c.name = some s → d.name = some s → i = j) ∧
      ¬ ((addCalls [] cs).map ParamSpec.name).Nodup := by
  refine ⟨[Toy.call (some "$p_{1}$") none, Toy.call none (some 3)], ?_, by decide +kernel⟩
  intro i j c d s hi hj hc hd
  rcases i with _ | _ | i <;> rcases j with _ | _ | j <;> simp at hi hj <;> subst hi <;> subst hj <;>
    simp_all [Toy.call]

/-! Three calls: the second has no name, the third no initial value. -/

example : ((addCalls [] [Toy.call (some "m") (some 2), Toy.call none (some 5), Toy.call (some "b") none]).map
    fun p => (p.name, p.theta0)) = [("m", 2), ("$p_{1}$", 5), ("b", 1)] := by decide +kernel

example : [Toy.spec "a" 7 false] <+: addCalls [Toy.spec "a" 7 false]
    [Toy.call none none, Toy.call (some "b") none] :=
  (C159_earlier_entries_kept _ _).1

example : ∃ p, (addCalls [] [Toy.call (some "m") (some 2), Toy.call none none])[1]? = some p ∧
    p.name = "$p_{1}$" ∧ p.theta0 = 1 := by
  obtain ⟨p, e, -, h, -, h', -⟩ := C159_entry_is_its_call
    [Toy.call (some "m") (some 2), Toy.call none none] 1 (Toy.call none none) rfl
  exact ⟨p, e, h rfl, h' rfl⟩

example (p q : ParamSpec ℚ)
    (hp : (addCalls [] [Toy.call none (some 2), Toy.call (some "m") none, Toy.call none none])[0]? = some p)
    (hq : (addCalls [] [Toy.call none (some 2), Toy.call (some "m") none, Toy.call none none])[2]? = some q) :
    p.name ≠ q.name := fun h =>
  absurd (C159_default_names_differ _ 0 2 _ _ rfl rfl rfl rfl p q hp hq h) (by decide)

example : ((addCalls [] [Toy.call none (some 2), Toy.call (some "m") none, Toy.call none none]).map
    ParamSpec.name).Nodup := by
  refine C159_names_distinct_partial _ ?_ ?_
  · intro i j c d s hi hj hc hd
    rcases i with _ | _ | _ | i <;> rcases j with _ | _ | _ | j <;> simp at hi hj <;> subst hi <;>
      subst hj <;> simp_all [Toy.call]
  · intro c hc k h
    simp only [List.mem_cons, List.not_mem_nil, or_false] at hc
    rcases hc with rfl | rfl | rfl
    · exact absurd h (by simp [Toy.call])
    · have h2 := congrArg String.toList (Option.some.inj h)
      simp only [String.toList_append] at h2
      have h3 := congrArg List.head? h2
      exact absurd h3 (by simp)
    · exact absurd h (by simp [Toy.call])

/-- three calls without a name -/
example : ((List.finRange 3).filter ![true, false, true]).map (fun k =>
    (addCalls [] [Toy.call none (some 2), Toy.call none none, Toy.call none (some 4)])[k.val]?.map ParamSpec.name)
      = [some "$p_{0}$", some "$p_{2}$"] := by decide +kernel

example (specs : Fin 3 → ParamSpec ℚ)
    (hs : ∀ k, (addCalls [] [Toy.call none (some 2), Toy.call none none, Toy.call none (some 4)])[k.val]? =
      some (specs k)) :
    (((List.finRange 3).filter ![true, false, true]).map fun k => (specs k).name).Nodup := by
  have hn : ∀ c ∈ [Toy.call none (some 2), Toy.call none none, Toy.call none (some 4)], c.name = none := by
    simp [Toy.call]
  refine C159_sampled_names_partial [Toy.call none (some 2), Toy.call none none, Toy.call none (some 4)]
    ?_ ?_ _ specs hs
  · intro i j c d s hi _ hc _
    rw [hn c (List.mem_of_getElem? hi)] at hc
    exact absurd hc (by simp)
  · intro c hc k
    rw [hn c hc]
    simp

end Verif
