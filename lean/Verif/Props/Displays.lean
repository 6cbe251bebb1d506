import Verif.Model.Displays
import Verif.Props.PlotUtils
import Verif.Props.Tables
import Mathlib.Tactic.Ring
import Mathlib.Tactic.NormNum
import Mathlib.Tactic.Linarith
import Mathlib.Tactic.FieldSimp
import Mathlib.Tactic.Positivity
import Mathlib.Tactic.GCongr
import Mathlib.Tactic.FinCases
import Mathlib.Tactic.IntervalCases
import Mathlib.Tactic.LinearCombination

/-! # C146, C147: display settings, and the printed Gelman-Rubin diagnostic -/

set_option linter.unusedSectionVars false

namespace Verif

/-! ### C146 -/

/-- `None` or a dictionary -/
def Disp.Usable (u : Disp) : Prop := u = .none ∨ ∃ ks v, u = .dict ks v

/-- the settings `r` are those of the user, and elsewhere the ones in the table `l` -/
def Disp.Merged (l : List (String × DispVal)) (u r : Disp) : Prop :=
  ∀ k, SVal.get r k = match SVal.get u k with
    | some x => some x
    | none => (l.lookup k).map SVal.leaf

theorem ofList_get (l : List (String × DispVal)) (k : String) :
    SVal.get (Disp.ofList l) k = (l.lookup k).map SVal.leaf := by
  unfold Disp.ofList SVal.get
  simp only
  cases h : l.lookup k with
  | none =>
    rw [if_neg]
    · rfl
    · intro hk
      obtain ⟨e, he, rfl⟩ := List.mem_map.1 hk
      have := List.lookup_eq_none_iff.1 h e he
      simp at this
  | some v =>
    rw [if_pos]
    · simp
    · obtain ⟨l1, l2, e, -⟩ := List.lookup_eq_some_iff.1 h
      rw [e]; simp

theorem flat_merge {ks us : List String} {dv uv : String → Disp} (hd : ∀ k, (dv k).isDict = false) :
    ∃ r, checkSettings (SVal.dict ks dv) (SVal.dict us uv) = .ok r := by
  rw [checkSettings]
  have key : ∀ (L : List String) (st0 : List String × (String → Disp)), ∃ st,
      L.foldlM (fun (st : List String × (String → Disp)) uo =>
        if uo ∈ ks then
          if (dv uo).isDict then (checkSettings (dv uo) (uv uo)).map (dictSet st uo)
          else .ok (dictSet st uo (uv uo))
        else .ok (dictSet st uo (uv uo))) st0 = (.ok st : Except PyErr _) := by
    intro L
    induction L with
    | nil => intro st0; exact ⟨st0, rfl⟩
    | cons a L ih =>
      intro st0
      obtain ⟨st, h⟩ := ih (dictSet st0 a (uv a))
      refine ⟨st, ?_⟩
      rw [List.foldlM_cons]
      simp only [hd a, Bool.false_eq_true, if_false, ite_self]
      exact h
  obtain ⟨st, h⟩ := key us (ks, dv)
  exact ⟨_, by rw [h]; rfl⟩

theorem ofList_merge {l : List (String × DispVal)} {u : Disp} (hu : u.Usable) :
    ∃ r, checkSettings (Disp.ofList l) u = .ok r := by
  rcases hu with rfl | ⟨us, uv, rfl⟩
  · exact ⟨_, rfl⟩
  · exact flat_merge fun k => by split <;> rfl

theorem ofList_merged {l : List (String × DispVal)} {u r : Disp}
    (h : checkSettings (Disp.ofList l) u = .ok r) : u.Usable ∧ Disp.Merged l u r := by
  obtain ⟨-, hu, hk⟩ := checkSettings_ok h
  refine ⟨?_, fun k => ?_⟩
  · rcases hu with ⟨rfl, -⟩ | ⟨us, uv, rfl⟩
    · exact .inl rfl
    · exact .inr ⟨_, _, rfl⟩
  · cases hg : SVal.get u k with
    | none => rw [(hk k).1 hg, ofList_get]
    | some x =>
      refine ((hk k).2 x hg).2 fun y hy => ?_
      rw [ofList_get] at hy
      obtain ⟨v, -, rfl⟩ := Option.map_eq_some_iff.1 hy
      rfl

/-- **C146.** `setup_display_settings` of the interval plots succeeds exactly if each of the three
arguments is `None` or a dictionary.  Then every setting is the user's if they gave it, and otherwise the
default: dotted black edges of width 1, opaque; a solid black line of width 2 for the model, labelled
`Model`; blue dots for the data, labelled `Data`; other keys are absent. -/
theorem C146_propagation (interval model data : Disp) :
    ((∃ r, setupDisplaySettings interval model data = .ok r) ↔
      interval.Usable ∧ model.Usable ∧ data.Usable) ∧
    ∀ i m d, setupDisplaySettings interval model data = .ok (i, m, d) →
      Disp.Merged [("linestyle", .txt ":"), ("linewidth", .num 1), ("alpha", .num 1),
        ("edgecolor", .txt "k")] interval i ∧
      Disp.Merged [("linestyle", .txt "-"), ("color", .txt "k"), ("marker", .txt ""),
        ("linewidth", .num 2), ("markersize", .num 5), ("label", .txt "Model")] model m ∧
      Disp.Merged [("linestyle", .txt ""), ("color", .txt "b"), ("marker", .txt "."),
        ("linewidth", .num 1), ("markersize", .num 5), ("label", .txt "Data")] data d := by
  have key : ∀ i m d, setupDisplaySettings interval model data = .ok (i, m, d) →
      checkSettings propIntervalDisplay interval = .ok i ∧ checkSettings propModelDisplay model = .ok m ∧
        checkSettings propDataDisplay data = .ok d := by
    intro i m d h
    obtain ⟨i', h1, h⟩ := bind_ok.1 h
    obtain ⟨m', h2, h⟩ := bind_ok.1 h
    obtain ⟨d', h3, h⟩ := bind_ok.1 h
    cases h
    exact ⟨h1, h2, h3⟩
  refine ⟨⟨fun ⟨r, h⟩ => ?_, fun ⟨h1, h2, h3⟩ => ?_⟩, fun i m d h => ?_⟩
  · obtain ⟨h1, h2, h3⟩ := key r.1 r.2.1 r.2.2 h
    exact ⟨(ofList_merged h1).1, (ofList_merged h2).1, (ofList_merged h3).1⟩
  · obtain ⟨i, h1⟩ := ofList_merge (l := [("linestyle", .txt ":"), ("linewidth", .num 1),
      ("alpha", .num 1), ("edgecolor", .txt "k")]) h1
    obtain ⟨m, h2⟩ := ofList_merge (l := [("linestyle", .txt "-"), ("color", .txt "k"), ("marker", .txt ""),
      ("linewidth", .num 2), ("markersize", .num 5), ("label", .txt "Model")]) h2
    obtain ⟨d, h3⟩ := ofList_merge (l := [("linestyle", .txt ""), ("color", .txt "b"), ("marker", .txt "."),
      ("linewidth", .num 1), ("markersize", .num 5), ("label", .txt "Data")]) h3
    exact ⟨(i, m, d), bind_ok.2 ⟨i, h1, bind_ok.2 ⟨m, h2, bind_ok.2 ⟨d, h3, rfl⟩⟩⟩⟩
  · obtain ⟨h1, h2, h3⟩ := key i m d h
    exact ⟨(ofList_merged h1).2, (ofList_merged h2).2, (ofList_merged h3).2⟩

/-- **C146, plot of prediction intervals.** The same for `plot_prediction_intervals`; its defaults are
half transparent intervals, a red line labelled `model`, and data labelled `data`. -/
theorem C146_prediction (interval model data : Disp) :
    ((∃ r, predSetupDisplaySettings interval model data = .ok r) ↔
      interval.Usable ∧ model.Usable ∧ data.Usable) ∧
    ∀ i m d, predSetupDisplaySettings interval model data = .ok (i, m, d) →
      Disp.Merged [("linestyle", .txt ":"), ("linewidth", .num 1), ("alpha", .num (1/2)),
        ("edgecolor", .txt "k")] interval i ∧
      Disp.Merged [("linestyle", .txt "-"), ("color", .txt "r"), ("marker", .txt ""),
        ("linewidth", .num 2), ("markersize", .num 5), ("label", .txt "model")] model m ∧
      Disp.Merged [("linestyle", .txt ""), ("color", .txt "b"), ("marker", .txt "."),
        ("linewidth", .num 1), ("markersize", .num 5), ("label", .txt "data")] data d := by
  have key : ∀ i m d, predSetupDisplaySettings interval model data = .ok (i, m, d) →
      checkSettings predIntervalDisplay interval = .ok i ∧ checkSettings predModelDisplay model = .ok m ∧
        checkSettings predDataDisplay data = .ok d := by
    intro i m d h
    obtain ⟨i', h1, h⟩ := bind_ok.1 h
    obtain ⟨m', h2, h⟩ := bind_ok.1 h
    obtain ⟨d', h3, h⟩ := bind_ok.1 h
    cases h
    exact ⟨h1, h2, h3⟩
  refine ⟨⟨fun ⟨r, h⟩ => ?_, fun ⟨h1, h2, h3⟩ => ?_⟩, fun i m d h => ?_⟩
  · obtain ⟨h1, h2, h3⟩ := key r.1 r.2.1 r.2.2 h
    exact ⟨(ofList_merged h1).1, (ofList_merged h2).1, (ofList_merged h3).1⟩
  · obtain ⟨i, h1⟩ := ofList_merge (l := [("linestyle", .txt ":"), ("linewidth", .num 1),
      ("alpha", .num (1/2)), ("edgecolor", .txt "k")]) h1
    obtain ⟨m, h2⟩ := ofList_merge (l := [("linestyle", .txt "-"), ("color", .txt "r"), ("marker", .txt ""),
      ("linewidth", .num 2), ("markersize", .num 5), ("label", .txt "model")]) h2
    obtain ⟨d, h3⟩ := ofList_merge (l := [("linestyle", .txt ""), ("color", .txt "b"), ("marker", .txt "."),
      ("linewidth", .num 1), ("markersize", .num 5), ("label", .txt "data")]) h3
    exact ⟨(i, m, d), bind_ok.2 ⟨i, h1, bind_ok.2 ⟨m, h2, bind_ok.2 ⟨d, h3, rfl⟩⟩⟩⟩
  · obtain ⟨h1, h2, h3⟩ := key i m d h
    exact ⟨(ofList_merged h1).2, (ofList_merged h2).2, (ofList_merged h3).2⟩

/-- a user who wants thick model lines, and no other change -/
example : ∃ i m d, setupDisplaySettings .none (Disp.ofList [("linewidth", .num 4)]) .none = .ok (i, m, d) ∧
    SVal.get m "linewidth" = some (.leaf (.num 4)) ∧ SVal.get m "color" = some (.leaf (.txt "k")) := by
  obtain ⟨⟨-, h⟩, hm⟩ := C146_propagation .none (Disp.ofList [("linewidth", .num 4)]) .none
  obtain ⟨⟨i, m, d⟩, h⟩ := h ⟨.inl rfl, .inr ⟨_, _, rfl⟩, .inl rfl⟩
  obtain ⟨-, h2, -⟩ := hm i m d h
  refine ⟨i, m, d, h, ?_, ?_⟩
  · rw [h2, ofList_get]; rfl
  · rw [h2, ofList_get]; rfl

/-! ### C147 -/

section
variable {F : Type} [PyFloat F] {p : ℕ}

/-- the six lines about one parameter -/
def psrfBlock (txt : F → List Char) (name : List Char) (r : Psrf F) : List (List Char) :=
  ["Parameter: ".toList ++ name, "  R = ".toList ++ txt r.R, "  B = ".toList ++ txt r.B,
    "  W = ".toList ++ txt r.W, "  V = ".toList ++ txt r.V, "  neff = ".toList ++ txt r.neff]

theorem display_eq (txt : F → List Char) (r : List (ParName × Psrf F)) :
    displayGelmanRubin txt r = r.flatMap fun e => psrfBlock txt e.1 e.2 := by
  unfold displayGelmanRubin psrfBlock Psrf.items
  simp only [List.map_cons, List.map_nil]
  rfl

/-- **C147.** For two or more chains of the same length and different names, one for each parameter,
`gelman_rubin` prints six lines about every parameter in the order of the names: its name, and `R`, `B`,
`W`, `V` and `neff` of the chains' columns of this parameter.  With `display=False` nothing is printed;
the dictionary returned is the same.  Missing: equal names (`C147_equal_refuted`). -/
theorem C147_printed_partial (txt : F → List Char) {n : ℕ} {chains : List (List (Vec F p))}
    (h2 : 2 ≤ chains.length) (hn : ∀ c ∈ chains, c.length = n) (hn0 : 0 < n) (names : Fin p → List Char)
    (hnd : Function.Injective names) (results : Option ResultNames) :
    ∃ (r : List (ParName × Psrf F)) (y : Fin p → Psrf F),
      (∀ i, calculatePsrf (chains.map fun c => c.map fun row => row i) n chains.length = .ok (y i)) ∧
      gelmanRubinShown txt chains (some (List.ofFn names)) results true =
        .ok (r, (List.ofFn fun i => psrfBlock txt (names i) (y i)).flatten) ∧
      gelmanRubinShown txt chains (some (List.ofFn names)) results false = .ok (r, []) ∧
      r = List.ofFn fun i => (names i, y i) := by
  obtain ⟨r, h, -, hrnd, hkeys, hr⟩ := (C110_by_name_partial h2 hn hn0).1 (List.ofFn names) results (by simp)
  have hno : (List.ofFn names).Nodup := List.nodup_ofFn.2 hnd
  have hk := hkeys hno
  have hget : ∀ i : Fin p, (List.ofFn names)[(i : ℕ)]? = some (names i) := fun i => by
    rw [List.getElem?_ofFn]; simp
  have hy : ∀ i : Fin p, ∃ y, r.lookup (names i) = some y ∧
      calculatePsrf (chains.map fun c => c.map fun row => row i) n chains.length = .ok y := by
    intro i
    refine hr i i.2 (names i) (hget i) fun j hj he => ?_
    have hjp : j < p := by
      by_contra hc
      rw [List.getElem?_eq_none (by simpa using hc)] at he
      cases he
    have := hget ⟨j, hjp⟩
    simp only at this
    rw [he, Option.some.injEq] at this
    have := congrArg Fin.val (hnd this)
    simp only at this
    omega
  choose y hy1 hy2 using hy
  have hrl : r = List.ofFn fun i => (names i, y i) := by
    have hlen : r.length = p := by
      have := congrArg List.length hk
      simpa using this
    refine List.ext_getElem (by simpa using hlen) fun i hi hi' => ?_
    have hip : i < p := by omega
    have hfst : (r[i]).1 = names ⟨i, hip⟩ := by
      have : (r.map Prod.fst)[i]? = some (names ⟨i, hip⟩) := by rw [hk]; exact hget ⟨i, hip⟩
      rw [List.getElem?_map, List.getElem?_eq_getElem hi] at this
      simpa using this
    have hlk : r.lookup (r[i]).1 = some (r[i]).2 := by
      have key : ∀ (l : List (ParName × Psrf F)), (l.map Prod.fst).Nodup → ∀ e ∈ l,
          l.lookup e.1 = some e.2 := by
        intro l
        induction l with
        | nil => intro _ e he; cases he
        | cons a l ih =>
          intro hnd e he
          rw [List.map_cons, List.nodup_cons] at hnd
          obtain ⟨k, v⟩ := a
          rcases List.mem_cons.1 he with rfl | hel
          · simp
          · have hne : (e.1 == k) = false := by
              rw [beq_eq_false_iff_ne]
              rintro rfl
              exact hnd.1 (List.mem_map.2 ⟨e, hel, rfl⟩)
            rw [List.lookup_cons, hne]
            exact ih hnd.2 e hel
      exact key r hrnd _ (List.getElem_mem hi)
    rw [hfst, hy1] at hlk
    rw [List.getElem_ofFn]
    exact Prod.ext hfst (Option.some.inj hlk).symm
  refine ⟨r, y, hy2, ?_, ?_, hrl⟩
  · unfold gelmanRubinShown
    rw [h, ok_bind]
    simp only [if_true]
    rw [display_eq, hrl]
    congr 2
    rw [List.flatMap_def, List.map_ofFn]
    rfl
  · unfold gelmanRubinShown
    rw [h, ok_bind]
    rfl

/-- **C147 is false for equal names**: only the last of two parameters with the same name is printed. -/
theorem C147_equal_refuted (txt : F → List Char) {n : ℕ} {chains : List (List (Vec F 2))}
    (h2 : 2 ≤ chains.length) (hn : ∀ c ∈ chains, c.length = n) (hn0 : 0 < n) (a : List Char)
    (results : Option ResultNames) :
    ∃ y, calculatePsrf (chains.map fun c => c.map fun row => row 1) n chains.length = .ok y ∧
      gelmanRubinShown txt chains (some [a, a]) results true = .ok ([(a, y)], psrfBlock txt a y) := by
  obtain ⟨y, h, hy⟩ := C110_equal_refuted h2 hn hn0 a results
  refine ⟨y, hy, ?_⟩
  unfold gelmanRubinShown
  rw [h, ok_bind]
  simp only [if_true]
  rw [display_eq]
  simp

end

/-- two chains of two rows and two named parameters: twelve lines are printed -/
example : ∃ (r : List (ParName × Psrf ℚ)) (lines : List (List Char)),
    gelmanRubinShown (fun _ => ['x']) [[![0, 1], ![1, 3]], [![2, 0], ![5, 1]]]
      (some ["a".toList, "b".toList]) none true = .ok (r, lines) ∧ lines.length = 12 ∧
    lines[6]? = some "Parameter: b".toList := by
  obtain ⟨r, y, -, h, -, -⟩ := C147_printed_partial (F := ℚ) (p := 2) (n := 2) (fun _ => ['x'])
    (chains := [[![0, 1], ![1, 3]], [![2, 0], ![5, 1]]]) (by simp) (by simp) (by norm_num)
    ![['a'], ['b']] (by decide) none
  exact ⟨r, _, h, rfl, rfl⟩

end Verif
