import Verif.Props.Continue

/-!
# C28: parameters with equal names

The values a continued run starts from are put into the parameter structure by name
(`settings/ModelParameters.py:245-264`).
-/

namespace Verif.Toy

/-- two sampled parameters named `a` -/
def namesakes : Fin 3 → ParamSpec ℚ := ![spec "a" 1 true, spec "b" 7 false, spec "a" 2 true]

/-- a run of two samples and its continuation -/
def twiceNamesakes : Except PyErr (RunOut ℚ ℕ flags 1 × RunOut ℚ ℕ flags 1) := do
  let a ← runSimulation user rng lapack 100
    (newObj namesakes { opts .mh 2 with updatesigma := true } extra settings data) 0 false
  let b ← runSimulation user rng lapack 100
    { a.obj with opts := { opts .mh 2 with updatesigma := true }, extra := extra } 3 true
  .ok (a, b)

end Verif.Toy

namespace Verif

/-- **C28: different names are needed.** If two sampled parameters have the same name, both start the
continued run at the last value of the second one: the first new row is not one move away from the
last old row. -/
theorem C28_distinct_names_needed : ¬ ∀ (specs : Fin 3 → ParamSpec ℚ) (o : Obj ℚ Toy.flags 1),
    Reachable Toy.user (newObj specs { Toy.opts .mh 2 with updatesigma := true } Toy.extra
      Toy.settings Toy.data) o →
    ∀ (rng : ℕ) (out : RunOut ℚ ℕ Toy.flags 1),
      runSimulation Toy.user Toy.rng Toy.lapack 100 o rng true = .ok out →
      ∀ (res : Results ℚ Toy.flags 1), o.results = some res →
        ∀ prev row ts, out.results.chain[res.chain.length - 1]? = some prev →
          out.results.chain[res.chain.length]? = some row → out.final.trace[0]? = some ts →
          Move prev row ts := by
  intro hall
  obtain ⟨⟨a, b⟩, h, hp⟩ := exists_ok_and (x := Toy.twiceNamesakes)
    (fun ab => decide (ab.1.results.chain.length = 2 ∧
      ab.2.results.chain.map List.ofFn = [[1, 2], [2, 0], [0, 0]] ∧
      ab.2.final.trace.map (fun t => t.map fun x => x.accepted) = [[false]]))
    (by decide +kernel)
  obtain ⟨h1, h2, h3⟩ := of_decide_eq_true hp
  simp only at h1 h2 h3
  unfold Toy.twiceNamesakes at h
  obtain ⟨a', ha, h⟩ := bind_ok.1 h
  obtain ⟨b', hb, h⟩ := bind_ok.1 h
  cases h
  have hr : Reachable Toy.user (newObj Toy.namesakes { Toy.opts .mh 2 with updatesigma := true }
        Toy.extra Toy.settings Toy.data)
      { a.obj with opts := { Toy.opts .mh 2 with updatesigma := true }, extra := Toy.extra } :=
    .options { method := .mh, nsimu := 2, savesize := 2, updatesigma := true } Toy.extra
      (.run Toy.rng Toy.lapack 100 0 false a .start ha)
  have hl := (run_objInv (reachable_objInv rfl .start) ha).2
  have hres : a.obj.results = some a.results := hl.1
  have hc := fun i : ℕ => congrArg (fun l => l[i]?) h2
  have ht := congrArg (fun l => l[0]?) h3
  simp only [List.getElem?_map] at hc ht
  have c1 := hc 1
  have c2 := hc 2
  simp only [List.getElem?_cons_succ, List.getElem?_cons_zero, Option.map_eq_some_iff] at c1 c2 ht
  obtain ⟨prev, hp1, hp2⟩ := c1
  obtain ⟨row, hr1, hr2⟩ := c2
  obtain ⟨ts, ht1, ht2⟩ := ht
  have hm := hall Toy.namesakes _ hr 3 b hb a.results hres prev row ts (by rw [h1]; exact hp1)
    (by rw [h1]; exact hr1) ht1
  rcases hm with ⟨he, -⟩ | ⟨pre, t, he, hacc, -⟩
  · rw [he, hp2] at hr2
    simp at hr2
  · have hmem : t.accepted ∈ ts.map (fun x => x.accepted) :=
      List.mem_map.2 ⟨t, by simp [he], rfl⟩
    rw [ht2, hacc] at hmem
    simp at hmem

end Verif
