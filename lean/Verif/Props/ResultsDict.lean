import Verif.Model.ResultsDict
import Verif.Props.ResultEntries

/-! # C154: the results structure -/

set_option linter.unusedSectionVars false

namespace Verif
variable {F σ : Type} [PyFloat F] {N n m : ℕ}

theorem any_key {V : Type} {d : List (String × V)} {key : String} :
    d.any (fun e => e.1 == key) = true ↔ key ∈ d.map Prod.fst := by
  simp only [List.any_eq_true, beq_iff_eq, List.mem_map]

theorem lookup_replace {V : Type} (key k : String) (v : V) : ∀ d : List (String × V), key ∈ d.map Prod.fst →
    (d.map fun e => if e.1 == key then (key, v) else e).lookup k = if k = key then some v else d.lookup k
  | [], h => by simp at h
  | (a, x) :: d, h => by
    by_cases ha : a = key
    · subst ha
      by_cases hk : k = a
      · simp [hk]
      · have hk' : (k == a) = false := beq_eq_false_iff_ne.2 hk
        rw [if_neg hk, List.lookup_cons, hk', List.map_cons, if_pos (by simp), List.lookup_cons, hk']
        by_cases hd : a ∈ d.map Prod.fst
        · simpa [hk] using lookup_replace a k v d hd
        · congr 1
          rw [List.map_congr_left (g := id), List.map_id]
          intro e he
          rw [if_neg]
          · rfl
          · intro hc
            exact hd (List.mem_map.2 ⟨e, he, by simpa using hc⟩)
    · have hd : key ∈ d.map Prod.fst := by
        rcases List.mem_cons.1 h with h | h
        · exact absurd h.symm ha
        · exact h
      rw [List.map_cons, if_neg (by simpa using ha), List.lookup_cons, List.lookup_cons, lookup_replace key k v d hd]
      by_cases hk : k = a
      · subst hk; simp [ha]
      · rw [beq_eq_false_iff_ne.2 hk]

theorem lookup_append_new {V : Type} (key k : String) (v : V) : ∀ d : List (String × V), key ∉ d.map Prod.fst →
    (d ++ [(key, v)]).lookup k = if k = key then some v else d.lookup k
  | [], _ => by
    by_cases hk : k = key
    · simp [hk]
    · simp [hk, List.lookup_cons, beq_eq_false_iff_ne.2 hk]
  | (a, x) :: d, h => by
    rw [List.map_cons, List.mem_cons, not_or] at h
    rw [List.cons_append, List.lookup_cons, List.lookup_cons, lookup_append_new key k v d h.2]
    by_cases hk : k = a
    · subst hk; simp [Ne.symm h.1]
    · rw [beq_eq_false_iff_ne.2 hk]

/-- a written key has the new value, every other key its old one -/
theorem lookup_dictPut {V : Type} (d : List (String × V)) (key k : String) (v : V) :
    (dictPut d key v).lookup k = if k = key then some v else d.lookup k := by
  unfold dictPut
  split
  · next h => exact lookup_replace key k v d (any_key.1 h)
  · next h => exact lookup_append_new key k v d fun hc => h (any_key.2 hc)

theorem keys_dictPut {V : Type} (d : List (String × V)) (key : String) (v : V) :
    (dictPut d key v).map Prod.fst = if key ∈ d.map Prod.fst then d.map Prod.fst else d.map Prod.fst ++ [key] := by
  unfold dictPut
  by_cases h : key ∈ d.map Prod.fst
  · rw [if_pos (any_key.2 h), if_pos h, List.map_map]
    refine List.map_congr_left fun e _ => ?_
    by_cases he : e.1 = key
    · simp [he]
    · simp [he]
  · rw [if_neg (fun hc => h (any_key.1 hc)), if_neg h, List.map_append]
    rfl

theorem nodup_dictPut {V : Type} {d : List (String × V)} (key : String) (v : V) (h : (d.map Prod.fst).Nodup) :
    ((dictPut d key v).map Prod.fst).Nodup := by
  rw [keys_dictPut]
  split
  · exact h
  · next hk =>
    rw [List.nodup_append]
    exact ⟨h, by simp, fun a ha b hb => by rw [List.mem_singleton.1 hb]; exact fun hc => hk (hc ▸ ha)⟩

theorem lookup_put (w : ResWorld F) (key k : String) (v : ResVal F) :
    (w.put key v).results.lookup k = if k = key then some v else w.results.lookup k := lookup_dictPut _ _ _ _

@[simp] theorem put_basic (w : ResWorld F) (key : String) (v : ResVal F) : (w.put key v).basic = w.basic := rfl
@[simp] theorem put_iacce (w : ResWorld F) (key : String) (v : ResVal F) : (w.put key v).iacce = w.iacce := rfl

/-- the keys that `add_basic` writes -/
def basicKeys : List String := ["theta", "parind", "local", "total_rejected", "rejected_outside_bounds", "R", "qcov",
  "cov", "qcov_scale", "mean", "names", "allnames", "limits", "nsimu", "simutime", "qcovorig", "original_covariance"]

/-- the keys that `add_dram` writes -/
def dramKeys : List String := ["drscale", "iacce", "alpha_count", "RDR"]

theorem addBasic_other (a : BasicArgs F N n) (w : ResWorld F) {k : String} (hk : k ∉ basicKeys) :
    (addBasic a w).1.results.lookup k = w.results.lookup k := by
  simp only [basicKeys, List.mem_cons, List.not_mem_nil, or_false, not_or] at hk
  unfold addBasic
  dsimp only
  split
  · simp only [lookup_put, hk, if_false]
  · split
    · simp only [lookup_put, hk, if_false]
    · simp only [lookup_put, hk, if_false]

theorem addDram_other (c : List F) (R : ResVal F) (t d s : ℕ) (w : ResWorld F) {k : String} (hk : k ∉ dramKeys) :
    (addDramCall c R t d s w).1.results.lookup k = w.results.lookup k := by
  simp only [dramKeys, List.mem_cons, List.not_mem_nil, or_false, not_or] at hk
  unfold addDramCall
  split
  · split
    · dsimp only
      split
      · simp only [lookup_put, hk, if_false]
      · simp only [lookup_put, hk, if_false]
    · rfl
  · rfl

theorem addUpdatesigma_lookup (b : Bool) (x y z : List F) (w : ResWorld F) (k : String) :
    (addUpdatesigma b x y z w).results.lookup k =
      if k = "N0" then some (if b then .vec z else .nan)
      else if k = "S20" then some (if b then .vec y else .nan)
      else if k = "sigma2" then some (if b then .nan else .vec x)
      else if k = "updatesigma" then some (.flag b) else w.results.lookup k := by
  unfold addUpdatesigma
  cases b <;> simp only [lookup_put, if_true, if_false, Bool.false_eq_true]

/-- a key that only calls recognised by `f` write holds the value of the last of these calls -/
theorem lookup_last (k : String) (f : ResCall F N n → Option (ResVal F))
    (hf : ∀ w c, (resStep w c).1.results.lookup k = (f c).or (w.results.lookup k)) (iacce : ℕ → List ℤ)
    (cs : List (ResCall F N n)) :
    (resSteps (newResults iacce) cs).results.lookup k = cs.reverse.findSome? f := by
  induction cs using List.reverseRecOn with
  | nil => rfl
  | append_singleton cs c ih =>
    unfold resSteps at ih ⊢
    rw [List.foldl_append, List.foldl_cons, List.foldl_nil, hf, ih, List.reverse_append, List.reverse_singleton,
      List.singleton_append, List.findSome?_cons]
    cases f c <;> rfl

theorem resStep_lookup (w : ResWorld F) (c : ResCall F N n) {k : String} (hb : k ∉ basicKeys) (hd : k ∉ dramKeys) :
    (resStep w c).1.results.lookup k = (match (motive := ResCall F N n → Option (ResVal F)) c with
      | .updatesigma b x y z => if k = "N0" then some (if b then .vec z else .nan)
        else if k = "S20" then some (if b then .vec y else .nan)
        else if k = "sigma2" then some (if b then .nan else .vec x)
        else if k = "updatesigma" then some (.flag b) else none
      | .prior mu sigma => if k = "prior" then some (ResVal.prior mu sigma) else none
      | .options items => if k = "simulation_options" then
          (match addOptions items with | .ok d => some (.dict d) | .error _ => none) else none
      | .model items => if k = "model_settings" then
          (match addModel items with | .ok d => some (.dict d) | .error _ => none) else none
      | .chain r => if k = "chain" then some (.rows r) else none
      | .s2chain r => if k = "s2chain" then some (resOrNone .rows r) else none
      | .sschain r => if k = "sschain" then some (.rows r) else none
      | .timeStats a b c => if k = "time [mh, dr, am]" then some (.vec [a, b, c]) else none
      | .rndseq l => if k = "rndseq" then some (.vec l) else none
      | _ => none).or (w.results.lookup k) := by
  cases c with
  | basic a => exact addBasic_other a w hb
  | dram c R t d s => exact addDram_other c R t d s w hd
  | updatesigma b x y z =>
    simp only [resStep, addUpdatesigma_lookup]
    split_ifs <;> rfl
  | options items =>
    simp only [resStep]
    cases addOptions items <;> simp only [lookup_put] <;> split_ifs <;> rfl
  | model items =>
    simp only [resStep]
    cases addModel items <;> simp only [lookup_put] <;> split_ifs <;> rfl
  | _ => simp only [resStep, lookup_put]; split_ifs <;> rfl

theorem addBasic_theta (a : BasicArgs F N n) (w : ResWorld F) :
    (addBasic a w).1.results.lookup "theta" = some (.vec (List.ofFn a.theta)) := by
  unfold addBasic
  dsimp only
  split
  · simp [lookup_put]
  · split <;> simp [lookup_put]

theorem addBasic_nsimu (a : BasicArgs F N n) (w : ResWorld F) :
    (addBasic a w).1.results.lookup "nsimu" = if a.nsimu = 0 then w.results.lookup "nsimu" else some (.int a.nsimu) := by
  unfold addBasic
  dsimp only
  split
  · simp [lookup_put]
  · split <;> simp [lookup_put]

theorem addBasic_basic (a : BasicArgs F N n) (w : ResWorld F) :
    (addBasic a w).1.basic = (w.basic || decide (a.nsimu ≠ 0 ∧ ∀ i, (a.parind i).val < a.qcovorig.1)) := by
  unfold addBasic
  dsimp only
  split
  · next h => simp [h]
  · next h =>
    split
    · next h2 => simp [h, h2]
    · next h2 => simp [h2]

theorem addDram_basic (c : List F) (R : ResVal F) (t d s : ℕ) (w : ResWorld F) :
    (addDramCall c R t d s w).1.basic = w.basic := by
  unfold addDramCall
  split
  · next h =>
    split
    · dsimp only
      split <;> rfl
    · rfl
  · rfl

theorem resStep_basic (w : ResWorld F) (c : ResCall F N n) : (resStep w c).1.basic = true ↔
    w.basic = true ∨ ∃ a, c = .basic a ∧ a.nsimu ≠ 0 ∧ ∀ i, (a.parind i).val < a.qcovorig.1 := by
  cases c with
  | basic a =>
    simp only [resStep, addBasic_basic, Bool.or_eq_true, decide_eq_true_eq]
    exact or_congr Iff.rfl ⟨fun h => ⟨a, rfl, h⟩, by rintro ⟨b, hb, h⟩; cases hb; exact h⟩
  | dram c R t d s => simp [resStep, addDram_basic]
  | updatesigma b x y z =>
    simp only [resStep, addUpdatesigma]
    cases b <;> simp
  | options items => simp only [resStep]; cases addOptions items <;> simp
  | model items => simp only [resStep]; cases addModel items <;> simp
  | _ => simp [resStep]

/-- `basic` is set exactly if a call of `add_basic` has completed -/
theorem basic_iff (iacce : ℕ → List ℤ) (cs : List (ResCall F N n)) :
    (resSteps (newResults iacce) cs).basic = true ↔
      ∃ a, .basic a ∈ cs ∧ a.nsimu ≠ 0 ∧ ∀ i, (a.parind i).val < a.qcovorig.1 := by
  induction cs using List.reverseRecOn with
  | nil => simp [resSteps, newResults]
  | append_singleton cs c ih =>
    have e : resSteps (newResults iacce) (cs ++ [c]) = (resStep (resSteps (newResults iacce) cs) c).1 := by
      simp [resSteps]
    rw [e, resStep_basic, ih]
    constructor
    · rintro (⟨a, ha, h⟩ | ⟨a, rfl, h⟩)
      · exact ⟨a, by simp [ha], h⟩
      · exact ⟨a, by simp, h⟩
    · rintro ⟨a, ha, h⟩
      rcases List.mem_append.1 ha with ha | ha
      · exact .inl ⟨a, ha, h⟩
      · exact .inr ⟨a, (List.mem_singleton.1 ha).symm, h⟩

theorem resStep_nsimu (w : ResWorld F) (c : ResCall F N n) : (resStep w c).1.results.lookup "nsimu" =
    (match c with
      | .basic a => if a.nsimu = 0 then none else some (.int a.nsimu)
      | _ => none : Option (ResVal F)).or (w.results.lookup "nsimu") := by
  cases c with
  | basic a =>
    simp only [resStep, addBasic_nsimu]
    split_ifs <;> rfl
  | dram c R t d s => exact addDram_other c R t d s w (by decide)
  | updatesigma b x y z => simp [resStep, addUpdatesigma_lookup]
  | options items => simp only [resStep]; cases addOptions items <;> simp [lookup_put]
  | model items => simp only [resStep]; cases addModel items <;> simp [lookup_put]
  | _ => simp [resStep, lookup_put]

theorem resStep_theta (w : ResWorld F) (c : ResCall F N n) : (resStep w c).1.results.lookup "theta" =
    (match c with
      | .basic a => some (.vec (List.ofFn a.theta))
      | _ => none : Option (ResVal F)).or (w.results.lookup "theta") := by
  cases c with
  | basic a => simp only [resStep, addBasic_theta]; rfl
  | dram c R t d s => exact addDram_other c R t d s w (by decide)
  | updatesigma b x y z => simp [resStep, addUpdatesigma_lookup]
  | options items => simp only [resStep]; cases addOptions items <;> simp [lookup_put]
  | model items => simp only [resStep]; cases addModel items <;> simp [lookup_put]
  | _ => simp [resStep, lookup_put]

/-- arguments of `add_basic`: two parameters, the second sampled, five steps -/
def demoBasic (nsimu : ℤ) : BasicArgs ℚ 2 1 :=
  { nsimu := nsimu, theta := ![1, 2], parind := fun _ => 1, loc := .vec [0, 0], names := ![ "a", "b"]
    lower := ![0, 0], upper := ![9, 8], total := 2, outside := 1, R := fun _ _ => 3, cov := none, mean := none
    qcovScale := 1, simutime := .real 7, qcovorig := ⟨2, fun _ _ => 4⟩, original := .other }

/-- **C154, the last value counts.** Whatever methods have been called, in whatever order, exceptions included: an
entry holds what the last call of its method was given, and is missing if there was none.  `add_basic` with
`nsimu = 0` raises, after it has replaced `theta` but not `nsimu`. -/
theorem C154_last_value (iacce : ℕ → List ℤ) (cs : List (ResCall F N n)) :
    let d := (resSteps (newResults iacce) cs).results
    d.lookup "chain" = cs.reverse.findSome? (fun | .chain r => some (.rows r) | _ => none) ∧
    d.lookup "sschain" = cs.reverse.findSome? (fun | .sschain r => some (.rows r) | _ => none) ∧
    d.lookup "s2chain" = cs.reverse.findSome? (fun
      | .s2chain (some r) => some (.rows r) | .s2chain none => some .none | _ => none) ∧
    d.lookup "prior" = cs.reverse.findSome? (fun | .prior mu sigma => some (.prior mu sigma) | _ => none) ∧
    d.lookup "rndseq" = cs.reverse.findSome? (fun | .rndseq l => some (.vec l) | _ => none) ∧
    d.lookup "time [mh, dr, am]" = cs.reverse.findSome? (fun | .timeStats x y z => some (.vec [x, y, z]) | _ => none) ∧
    d.lookup "theta" = cs.reverse.findSome? (fun | .basic a => some (.vec (List.ofFn a.theta)) | _ => none) ∧
    d.lookup "nsimu" = cs.reverse.findSome? (fun
      | .basic a => if a.nsimu = 0 then none else some (.int a.nsimu) | _ => none) := by
  refine ⟨lookup_last _ _ (fun w c => ?_) _ _, lookup_last _ _ (fun w c => ?_) _ _,
    lookup_last _ _ (fun w c => ?_) _ _, lookup_last _ _ (fun w c => ?_) _ _, lookup_last _ _ (fun w c => ?_) _ _,
    lookup_last _ _ (fun w c => ?_) _ _, lookup_last _ _ (fun w c => ?_) _ _, lookup_last _ _ (fun w c => ?_) _ _⟩
  · rw [resStep_lookup w c (by decide) (by decide)]
    cases c <;> simp
  · rw [resStep_lookup w c (by decide) (by decide)]
    cases c <;> simp
  · rw [resStep_lookup w c (by decide) (by decide)]
    cases c <;> simp
    next r => cases r <;> rfl
  · rw [resStep_lookup w c (by decide) (by decide)]
    cases c <;> simp
  · rw [resStep_lookup w c (by decide) (by decide)]
    cases c <;> simp
  · rw [resStep_lookup w c (by decide) (by decide)]
    cases c <;> simp
  · rw [resStep_theta w c]
  · rw [resStep_nsimu w c]

/-- The chain is added twice; `add_basic` completes, then raises; the prior is never added. -/
example : let d := (resSteps (newResults fun _ => [0]) [.chain [[1]], .basic (demoBasic 5),
      .basic { demoBasic 0 with theta := ![6, 7] }, .chain [[1], [2]]]).results
    d.lookup "chain" = some (.rows [[1], [2]]) ∧ d.lookup "prior" = none ∧ d.lookup "theta" = some (.vec [6, 7]) ∧
      d.lookup "nsimu" = some (.int 5) := by
  obtain ⟨h1, -, -, h4, -, -, h7, h8⟩ := C154_last_value (fun _ => [0]) [.chain [[1]], .basic (demoBasic 5),
    .basic { demoBasic 0 with theta := ![6, 7] }, .chain [[1], [2]]]
  exact ⟨h1.trans rfl, h4.trans rfl, h7.trans (by simp [List.findSome?_cons]),
    h8.trans (by simp [demoBasic])⟩

/-- **C154, `add_basic`.** Whatever is stored already: it raises `ZeroDivisionError` if `nsimu = 0`, `IndexError` if
a sampled parameter is not inside the covariance array, and completes in all other cases; then the rates are the
counts over `nsimu`, and names, limits and the block of the covariance are those of the sampled parameters. -/
theorem C154_basic (w : ResWorld F) (a : BasicArgs F N n) :
    (a.nsimu = 0 → (resStep w (.basic a)).2 = .raised .zeroDivision) ∧
    (a.nsimu ≠ 0 → (∃ i, a.qcovorig.1 ≤ (a.parind i).val) → (resStep w (.basic a)).2 = .raised .indexError) ∧
    (a.nsimu ≠ 0 → (∀ i, (a.parind i).val < a.qcovorig.1) → ∃ w', resStep w (.basic a) = (w', .returned none) ∧
      w'.iacce = w.iacce ∧
      w'.results.lookup "parind" = some (.indices (List.ofFn fun i => (a.parind i).val)) ∧
      w'.results.lookup "names" = some (.strings (List.ofFn fun i => a.names (a.parind i))) ∧
      w'.results.lookup "allnames" = some (.strings (List.ofFn a.names)) ∧
      w'.results.lookup "limits" =
        some (.rows [List.ofFn fun i => a.lower (a.parind i), List.ofFn fun i => a.upper (a.parind i)]) ∧
      w'.results.lookup "total_rejected" = some (.real (ofInt a.total * (lit 1 / ofInt a.nsimu))) ∧
      w'.results.lookup "rejected_outside_bounds" = some (.real (ofInt a.outside * (lit 1 / ofInt a.nsimu))) ∧
      w'.results.lookup "R" = some (.rows (List.ofFn fun i => List.ofFn fun j => a.R i j)) ∧
      w'.results.lookup "qcov" = some (.rows (List.ofFn fun i => List.ofFn fun j => rtr a.R i j)) ∧
      (∀ M, a.cov = some M → w'.results.lookup "cov" = some (.rows (List.ofFn fun i => List.ofFn fun j => M i j))) ∧
      (a.cov = none → w'.results.lookup "cov" = some .none) ∧
      (∀ v, a.mean = some v → w'.results.lookup "mean" = some (.vec (List.ofFn v))) ∧
      (a.mean = none → w'.results.lookup "mean" = some .none) ∧
      w'.results.lookup "qcov_scale" = some (.real a.qcovScale) ∧ w'.results.lookup "local" = some a.loc ∧
      w'.results.lookup "simutime" = some a.simutime ∧ w'.results.lookup "original_covariance" = some a.original) := by
  refine ⟨fun h => ?_, fun h ⟨i, hi⟩ => ?_, fun h hi => ?_⟩
  · simp only [resStep, addBasic, if_pos h]
  · have hn : ¬ ∀ i, (a.parind i).val < a.qcovorig.1 := fun hc => absurd (hc i) (by omega)
    simp only [resStep, addBasic, if_neg h, if_neg hn]
  · simp only [resStep, addBasic, if_neg h, if_pos hi]
    refine ⟨_, rfl, ?_, ?_⟩
    · simp only [put_iacce]
    simp only [lookup_put]
    simp [List.map_ofFn, matRows, resOrNone, Function.comp_def]
    refine ⟨?_, ?_, ?_, ?_⟩
    · intro M hM; simp [hM]
    · intro hM; simp [hM]
    · intro M hM; simp [hM]
    · intro hM; simp [hM]

/-- Five steps; then none; then a parameter outside the covariance array. -/
example : (∃ w', resStep (newResults fun _ => []) (.basic (demoBasic 5)) = (w', .returned none) ∧
      w'.results.lookup "names" = some (.strings ["b"])) ∧
    (resStep (newResults fun _ => []) (.basic (demoBasic 0))).2 = .raised .zeroDivision ∧
    (resStep (newResults fun _ => []) (.basic { demoBasic 5 with qcovorig := ⟨1, fun _ _ => 4⟩ })).2 =
      .raised .indexError := by
  refine ⟨?_, (C154_basic _ _).1 rfl, (C154_basic _ _).2.1 (by decide) ⟨0, by decide⟩⟩
  obtain ⟨w', h1, -, -, h2, -⟩ := (C154_basic (newResults fun _ => []) (demoBasic 5)).2.2 (by decide) (by decide)
  exact ⟨w', h1, h2⟩

/-- **C154, error variance.** The entries of `add_updatesigma` are always those of one call, its last: either the
error variance is NaN and the prior parameters are given, or the other way round. -/
theorem C154_updatesigma (iacce : ℕ → List ℤ) (cs : List (ResCall F N n)) (b : Bool) (x y z : List F)
    (cs' : List (ResCall F N n)) (hcs : ∀ c ∈ cs', ∀ b x y z, c ≠ .updatesigma b x y z) :
    let d := (resSteps (newResults iacce) (cs ++ .updatesigma b x y z :: cs')).results
    d.lookup "updatesigma" = some (.flag b) ∧
    (b = true → d.lookup "sigma2" = some .nan ∧ d.lookup "S20" = some (.vec y) ∧ d.lookup "N0" = some (.vec z)) ∧
    (b = false → d.lookup "sigma2" = some (.vec x) ∧ d.lookup "S20" = some .nan ∧ d.lookup "N0" = some .nan) := by
  have key : ∀ k ∈ ["updatesigma", "sigma2", "S20", "N0"],
      (resSteps (newResults iacce) (cs ++ .updatesigma b x y z :: cs')).results.lookup k =
      if k = "N0" then some (if b then .vec z else .nan)
      else if k = "S20" then some (if b then .vec y else .nan)
      else if k = "sigma2" then some (if b then .nan else .vec x)
      else some (.flag b) := by
    intro k hk
    induction cs' using List.reverseRecOn with
    | nil =>
      unfold resSteps
      rw [List.foldl_append, List.foldl_cons, List.foldl_nil]
      simp only [resStep, addUpdatesigma_lookup]
      simp only [List.mem_cons, List.not_mem_nil, or_false] at hk
      rcases hk with rfl | rfl | rfl | rfl <;> simp
    | append_singleton l c ih =>
      have hc := hcs c (by simp)
      rw [← ih fun e he => hcs e (by simp [he])]
      have e : resSteps (newResults iacce) (cs ++ .updatesigma b x y z :: (l ++ [c])) =
          (resStep (resSteps (newResults iacce) (cs ++ .updatesigma b x y z :: l)) c).1 := by simp [resSteps]
      simp only [List.mem_cons, List.not_mem_nil, or_false] at hk
      have h1 : k ∉ basicKeys := by rcases hk with rfl | rfl | rfl | rfl <;> decide
      have h2 : k ∉ dramKeys := by rcases hk with rfl | rfl | rfl | rfl <;> decide
      rw [e, resStep_lookup _ _ h1 h2]
      cases c with
      | updatesigma b x y z => exact absurd rfl (hc b x y z)
      | _ => rcases hk with rfl | rfl | rfl | rfl <;> simp
  refine ⟨by rw [key _ (by simp)]; simp, ?_, ?_⟩
  · rintro rfl
    exact ⟨by rw [key _ (by simp)]; simp, by rw [key _ (by simp)]; simp, by rw [key _ (by simp)]; simp⟩
  · rintro rfl
    exact ⟨by rw [key _ (by simp)]; simp, by rw [key _ (by simp)]; simp, by rw [key _ (by simp)]; simp⟩

/-- First a fixed error variance, then one that is updated. -/
example : let d := (resSteps (newResults fun _ => []) ([.updatesigma false [2] [3] [4]] ++
      ResCall.updatesigma (F := ℚ) (N := 2) (n := 1) true [5] [6] [7] :: [.rndseq [8]])).results
    d.lookup "sigma2" = some .nan ∧ d.lookup "S20" = some (.vec [6]) :=
  have h := (C154_updatesigma (fun _ => []) [.updatesigma false [2] [3] [4]] true [5] [6] [7] [.rndseq [8]]
    (by simp)).2.1 rfl
  ⟨h.1, h.2.1⟩

theorem resStep_nodup {w : ResWorld F} (hw : (w.results.map Prod.fst).Nodup) (c : ResCall F N n) :
    ((resStep w c).1.results.map Prod.fst).Nodup := by
  have hp : ∀ {w : ResWorld F} (key : String) (v : ResVal F), (w.results.map Prod.fst).Nodup →
      ((w.put key v).results.map Prod.fst).Nodup := fun key v h => nodup_dictPut key v h
  have hb : ∀ {w : ResWorld F} {b : Bool}, (w.results.map Prod.fst).Nodup →
      (({ w with basic := b } : ResWorld F).results.map Prod.fst).Nodup := fun h => h
  have hi : ∀ {w : ResWorld F} {f : ℕ → List ℤ}, (w.results.map Prod.fst).Nodup →
      (({ w with iacce := f } : ResWorld F).results.map Prod.fst).Nodup := fun h => h
  cases c with
  | basic a =>
    simp only [resStep]
    unfold addBasic
    dsimp only
    split
    · iterate 3 refine hp _ _ ?_
      exact hw
    · split
      · refine hb (b := true) ?_
        iterate 17 refine hp _ _ ?_
        exact hw
      · iterate 15 refine hp _ _ ?_
        exact hw
  | dram c R t d s =>
    simp only [resStep]
    unfold addDramCall
    split
    · split
      · dsimp only
        split
        · exact hp _ _ hw
        · iterate 3 refine hp _ _ ?_
          exact hi (hp _ _ hw)
      · exact hw
    · exact hw
  | updatesigma b x y z =>
    simp only [resStep, addUpdatesigma]
    cases b
    · exact hp _ _ (hp _ _ (hp _ _ (hp _ _ hw)))
    · exact hp _ _ (hp _ _ (hp _ _ (hp _ _ hw)))
  | options items =>
    simp only [resStep]
    cases addOptions items
    · exact hw
    · exact hp _ _ hw
  | model items =>
    simp only [resStep]
    cases addModel items
    · exact hw
    · exact hp _ _ hw
  | _ => exact hp _ _ hw

/-- **C154, keys.** No key appears twice. -/
theorem C154_keys (iacce : ℕ → List ℤ) (cs : List (ResCall F N n)) :
    ((resSteps (newResults iacce) cs).results.map Prod.fst).Nodup := by
  induction cs using List.reverseRecOn with
  | nil => simp [resSteps, newResults]
  | append_singleton cs c ih =>
    have e : resSteps (newResults iacce) (cs ++ [c]) = (resStep (resSteps (newResults iacce) cs) c).1 := by
      simp [resSteps]
    rw [e]
    exact resStep_nodup ih c

/-- The same entry twice is one key. -/
example : ((resSteps (N := 2) (n := 1) (newResults (F := ℚ) fun _ => [])
    [.chain [[1]], .prior [1] [2], .chain [[2]]]).results.map Prod.fst) = ["chain", "prior"] := by
  decide +kernel

theorem lookup_nsimu_int (iacce : ℕ → List ℤ) (cs : List (ResCall F N n)) {a : BasicArgs F N n} (ha : .basic a ∈ cs)
    (h0 : a.nsimu ≠ 0) : ∃ k : ℤ, (resSteps (newResults iacce) cs).results.lookup "nsimu" = some (.int k) ∧
      cs.reverse.findSome? (fun | .basic a => if a.nsimu = 0 then none else some a.nsimu | _ => none) = some k := by
  induction cs using List.reverseRecOn with
  | nil => simp at ha
  | append_singleton cs c ih =>
    have e : resSteps (newResults iacce) (cs ++ [c]) = (resStep (resSteps (newResults iacce) cs) c).1 := by
      simp [resSteps]
    rw [e, resStep_nsimu, List.reverse_append, List.reverse_singleton, List.singleton_append, List.findSome?_cons]
    by_cases hc : ∃ b : BasicArgs F N n, c = .basic b ∧ b.nsimu ≠ 0
    · obtain ⟨b, rfl, hb⟩ := hc
      exact ⟨b.nsimu, by simp [hb]⟩
    · have hmem : .basic a ∈ cs := by
        rcases List.mem_append.1 ha with h | h
        · exact h
        · exact absurd ⟨a, (List.mem_singleton.1 h).symm, h0⟩ hc
      obtain ⟨k, h1, h2⟩ := ih hmem
      refine ⟨k, ?_⟩
      cases c with
      | basic b =>
        have hb : b.nsimu = 0 := by
          by_contra h
          exact hc ⟨b, rfl, h⟩
        simp only [hb, if_true]
        exact ⟨h1, h2⟩
      | _ => exact ⟨h1, h2⟩

/-- **C154, `add_dram`.** It returns `False`, changing nothing, as long as no call of `add_basic` has completed.
Afterwards it raises `IndexError` if there are no counters, and else returns `True`: the counters then add up to the
number of steps given to the last `add_basic` (that got as far as storing it) less the rejections; only entry 0 was
changed; the entry `iacce` is the array of counters itself; and a second call changes nothing more. -/
theorem C154_dram (iacce : ℕ → List ℤ) (cs : List (ResCall F N n)) (drscale : List F) (RDR : ResVal F)
    (total d steps : ℕ) :
    let w := resSteps (newResults iacce) cs
    let call : ResCall F N n := .dram drscale RDR total d steps
    ((∀ a, .basic a ∈ cs → a.nsimu = 0 ∨ ∃ i, a.qcovorig.1 ≤ (a.parind i).val) →
      resStep w call = (w, .returned (some false))) ∧
    ((∃ a, .basic a ∈ cs ∧ a.nsimu ≠ 0 ∧ ∀ i, (a.parind i).val < a.qcovorig.1) →
      (w.iacce d = [] → (resStep w call).2 = .raised .indexError) ∧
      ∀ x rest, w.iacce d = x :: rest → ∃ w' k, resStep w call = (w', .returned (some true)) ∧
        cs.reverse.findSome? (fun | .basic a => if a.nsimu = 0 then none else some a.nsimu | _ => none) = some k ∧
        (w'.iacce d).sum = k - total ∧ (w'.iacce d).tail = rest ∧ (∀ e, e ≠ d → w'.iacce e = w.iacce e) ∧
        w'.results.lookup "iacce" = some (.counters d) ∧ w'.results.lookup "drscale" = some (.vec drscale) ∧
        w'.results.lookup "alpha_count" = some (.int steps) ∧ w'.results.lookup "RDR" = some RDR ∧
        (∀ key ∉ ["iacce", "drscale", "alpha_count", "RDR"], w'.results.lookup key = w.results.lookup key) ∧
        ∃ w'', resStep w' call = (w'', .returned (some true)) ∧ w''.iacce = w'.iacce ∧
          ∀ key, w''.results.lookup key = w'.results.lookup key) := by
  intro w call
  have hb := basic_iff iacce cs
  refine ⟨fun h => ?_, ?_⟩
  · have : w.basic = false := by
      by_contra hc
      obtain ⟨a, ha, h1, h2⟩ := hb.1 (by simpa using hc)
      rcases h a ha with h | ⟨i, hi⟩
      · exact h1 h
      · exact absurd (h2 i) (by omega)
    simp only [call, resStep, addDramCall, this, Bool.false_eq_true, if_false]
  · rintro ⟨a, ha, h1, h2⟩
    have hw : w.basic = true := hb.2 ⟨a, ha, h1, h2⟩
    obtain ⟨k, hk, hk2⟩ := lookup_nsimu_int iacce cs ha h1
    change w.results.lookup "nsimu" = _ at hk
    refine ⟨fun h => ?_, fun x rest h => ?_⟩
    · simp only [call, resStep, addDramCall, hw, if_true, hk, put_iacce, h]
    · have key : ∀ (v : ResWorld F) (y : ℤ), v.basic = true → v.results.lookup "nsimu" = some (.int k) →
          v.iacce d = y :: rest → ∃ v', resStep v call = (v', .returned (some true)) ∧
            v'.iacce = (fun e => if e = d then (k - total - rest.sum) :: rest else v.iacce e) ∧ v'.basic = true ∧
            (∀ key, v'.results.lookup key = if key = "RDR" then some RDR else if key = "alpha_count" then
              some (.int steps) else if key = "iacce" then some (.counters d) else if key = "drscale" then
              some (.vec drscale) else v.results.lookup key) := by
        intro v y hv hn hi
        simp only [call, resStep, addDramCall, hv, if_true, hn, put_iacce, hi]
        refine ⟨_, rfl, rfl, hv, fun key => ?_⟩
        simp only [lookup_put]
      obtain ⟨w', e1, e2, e3, e4⟩ := key w x hw hk h
      have e5 : w'.iacce d = (k - total - rest.sum) :: rest := by rw [e2]; simp
      refine ⟨w', k, e1, hk2, ?_, ?_, ?_, ?_, ?_, ?_, ?_, ?_, ?_⟩
      · rw [e5, List.sum_cons]; ring
      · rw [e5]; rfl
      · intro e he; rw [e2]; simp [he]
      · rw [e4]; simp
      · rw [e4]; simp
      · rw [e4]; simp
      · rw [e4]; simp
      · intro key hkey
        simp only [List.mem_cons, List.not_mem_nil, or_false, not_or] at hkey
        rw [e4]; simp [hkey]
      · obtain ⟨w'', f1, f2, f3, f4⟩ := key w' _ e3 (by rw [e4]; simpa using hk) e5
        refine ⟨w'', f1, ?_, fun key => ?_⟩
        · rw [f2, e2]
          funext e
          by_cases he : e = d <;> simp [he]
        · rw [f4, e4]
          split_ifs <;> rfl

/-- Before `add_basic`: refused.  After it, with five steps, two rejections and one point accepted at the second try:
the counters are 2 and 1. -/
example : (resStep (resSteps (N := 2) (n := 1) (newResults (F := ℚ) fun _ => [0, 1]) [.chain []])
      (.dram (N := 2) (n := 1) [5] .none 2 0 4)).2 = .returned (some false) ∧
    ∃ w', resStep (resSteps (newResults fun _ => [0, 1]) [.basic (demoBasic 5)]) (.dram (N := 2) (n := 1) [5] .none 2 0 4) =
      (w', .returned (some true)) ∧ (w'.iacce 0).sum = 3 ∧ (w'.iacce 0).tail = [1] := by
  refine ⟨by rw [(C154_dram (fun _ => [0, 1]) [.chain []] [5] .none 2 0 4).1 (by simp)], ?_⟩
  obtain ⟨w', k, h1, h2, h3, h4, -⟩ := ((C154_dram (fun _ => [0, 1]) [.basic (demoBasic 5)] [5] .none 2 0 4).2
    ⟨demoBasic 5, by simp, by decide, by decide⟩).2 0 [1] rfl
  simp [demoBasic] at h2
  subst h2
  exact ⟨w', h1, by rw [h3]; rfl, h4⟩

theorem addBasic_ok {a : BasicArgs F N n} (h0 : a.nsimu ≠ 0) (hi : ∀ i, (a.parind i).val < a.qcovorig.1)
    (iacce : ℕ → List ℤ) : ∃ w, addBasic a (newResults iacce) = (w, .returned none) ∧ w.basic = true ∧
      w.iacce = iacce ∧ w.results.map Prod.fst = basicKeys ∧
      w.results.lookup "theta" = some (.vec (List.ofFn a.theta)) ∧
      w.results.lookup "parind" = some (.indices ((List.ofFn a.parind).map fun k => k.val)) ∧
      w.results.lookup "total_rejected" = some (.real (ofInt a.total * (lit 1 / ofInt a.nsimu))) ∧
      w.results.lookup "rejected_outside_bounds" = some (.real (ofInt a.outside * (lit 1 / ofInt a.nsimu))) ∧
      w.results.lookup "R" = some (.rows (matRows a.R)) ∧
      w.results.lookup "qcov" = some (.rows (matRows (rtr a.R))) ∧
      w.results.lookup "cov" = some (resOrNone (fun M => .rows (matRows M)) a.cov) ∧
      w.results.lookup "mean" = some (resOrNone (fun v => .vec (List.ofFn v)) a.mean) ∧
      w.results.lookup "qcov_scale" = some (.real a.qcovScale) ∧
      w.results.lookup "names" = some (.strings ((List.ofFn a.parind).map a.names)) ∧
      w.results.lookup "allnames" = some (.strings (List.ofFn a.names)) ∧
      w.results.lookup "limits" = some (.rows [(List.ofFn a.parind).map a.lower, (List.ofFn a.parind).map a.upper]) ∧
      w.results.lookup "nsimu" = some (.int a.nsimu) ∧
      w.results.lookup "qcovorig" =
        some (.rows (matRows (ixAssign a.qcovorig.2 (fun i => (a.parind i).val) (rtr a.R)))) := by
  unfold addBasic
  dsimp only
  rw [if_neg h0, if_pos hi]
  refine ⟨_, rfl, rfl, rfl, ?_, ?_⟩
  · simp [ResWorld.put, keys_dictPut, newResults, basicKeys]
  · simp only [lookup_put]
    simp

theorem mem_keys_put (w : ResWorld F) (key k : String) (v : ResVal F) :
    k ∈ (w.put key v).results.map Prod.fst ↔ k = key ∨ k ∈ w.results.map Prod.fst := by
  unfold ResWorld.put
  rw [keys_dictPut]
  split
  · next h => exact ⟨.inr, by rintro (rfl | h') <;> assumption⟩
  · rw [List.mem_append, List.mem_singleton, or_comm]

theorem ofFn_parindOf (flags : Fin N → Bool) : List.ofFn (parindOf flags) = (List.finRange N).filter flags := by
  unfold parindOf sampledIdx
  exact List.ofFn_get _

/-- **C154, the results of a run.** After a run that completes none of the calls has raised, and the results
dictionary has exactly these keys, in this order, those of the delayed-rejection stages only if there is more than
one try.  The entries are those of the run, the counters add up to the accepted points (C05), and the dictionary
saved lightly is the same without the three chains. -/
theorem C154_run {flags : Fin N → Bool} {U : UserFuns F N (nS flags) m} {o : Obj F flags m} {G : Rng σ F}
    {L : Lapack F} {fuel : ℕ} {rng : σ} {up : Bool} {out : RunOut F σ flags m}
    (h : runSimulation U G L fuel o rng up = .ok out) :
    ∃ w, resultsAfter out = .ok w ∧
      w.results.map Prod.fst =
        ["theta", "parind", "local", "total_rejected", "rejected_outside_bounds", "R", "qcov", "cov", "qcov_scale",
          "mean", "names", "allnames", "limits", "nsimu", "simutime", "qcovorig", "original_covariance"] ++
        (if 1 < o.opts.ntry then ["drscale", "iacce", "alpha_count", "RDR"] else []) ++
        ["simulation_options", "model_settings", "prior", "chain", "s2chain", "sschain"] ∧
      w.results.lookup "theta" = some (.vec (List.ofFn out.results.theta)) ∧
      w.results.lookup "parind" = some (.indices (((List.finRange N).filter flags).map fun k => k.val)) ∧
      w.results.lookup "names" = some (.strings out.results.names) ∧
      w.results.lookup "nsimu" = some (.int o.opts.nsimu) ∧
      w.results.lookup "total_rejected" =
        some (.real (ofInt (out.final.trace.countP Rejection : ℕ) * (lit 1 / ofInt o.opts.nsimu))) ∧
      w.results.lookup "R" = some (.rows (matRows out.results.R)) ∧
      w.results.lookup "qcov" = some (.rows (matRows out.results.qcov)) ∧
      w.results.lookup "qcovorig" = some (.rows (matRows (reportOf out).qcovorig)) ∧
      w.results.lookup "chain" = some (.rows (out.results.chain.map List.ofFn)) ∧
      w.results.lookup "sschain" = some (.rows (out.results.sschain.map List.ofFn)) ∧
      (∀ c, out.results.s2chain = some c → w.results.lookup "s2chain" = some (.rows (c.map List.ofFn))) ∧
      (out.results.s2chain = none → w.results.lookup "s2chain" = some .none) ∧
      (∃ d, optionsEntry out = .ok d ∧ w.results.lookup "simulation_options" = some (.dict d)) ∧
      (∃ d, settingsEntry out = .ok d ∧ w.results.lookup "model_settings" = some (.dict d)) ∧
      w.results.lookup "prior" = some (.prior (List.ofFn (priorEntry out).1) (List.ofFn (priorEntry out).2)) ∧
      (1 < o.opts.ntry → ∃ l k, out.results.dram = some (l, k) ∧ w.results.lookup "iacce" = some (.counters 0) ∧
        w.iacce 0 = l ∧ w.results.lookup "alpha_count" = some (.int k) ∧
        w.results.lookup "drscale" = some (.vec out.obj.extra.drscale) ∧
        (∀ Ms, out.final.cov.RDR = .some Ms →
          w.results.lookup "RDR" = some (.matrices (Ms.map fun M => (List.ofFn M).map List.ofFn))) ∧
        (out.final.cov.RDR = .pyNone → w.results.lookup "RDR" = some .none)) ∧
      (∀ M, out.results.cov = some M → w.results.lookup "cov" = some (.rows ((List.ofFn M).map List.ofFn))) ∧
      (out.results.cov = none → w.results.lookup "cov" = some .none) ∧
      (∀ v, out.results.mean = some v → w.results.lookup "mean" = some (.vec (List.ofFn v))) ∧
      (out.results.mean = none → w.results.lookup "mean" = some .none) ∧
      w.results.lookup "limits" = some (.rows
        [((List.finRange N).filter flags).map fun k => (out.obj.specs k).minimum,
          ((List.finRange N).filter flags).map fun k => (out.obj.specs k).maximum]) ∧
      w.results.lookup "allnames" = some (.strings (List.ofFn fun k => (out.obj.specs k).name)) ∧
      ∃ r, withoutKeys w.results ["chain", "s2chain", "sschain"] = .ok r ∧
        ∀ k, r.lookup k = if k ∈ ["chain", "s2chain", "sschain"] then none else w.results.lookup k := by
  obtain ⟨hn1, hr1, -⟩ := C04_rejection_counts h
  obtain ⟨o1, I, s0, h1, h2, h3, h4, h5⟩ := runSimulation_ok h
  obtain ⟨g1, g2, g3, g4, g5, g6, g7, g8, g9, g10, g11, g12⟩ := generateResults_ok h3
  have hst := (setup_start h1).1
  have ho : out.obj.opts = checkDependentSimulationOptions o.opts o.ms.N0.isSome := by
    rw [h5, ← hst.opts, ← hst.ms, ← hst.init.opts]
  have hns : out.obj.opts.nsimu = o.opts.nsimu := by rw [ho]; rfl
  have hnt : out.obj.opts.ntry = o.opts.ntry := by rw [ho]; rfl
  have hI : I.opts = out.obj.opts := by rw [h5]
  obtain ⟨d1, hd1, -⟩ := C148_options h
  obtain ⟨d2, hd2, -⟩ := (C148_removekeys ["sos_function", "prior_function", "model_function",
    "prior_update_function", "prior_pars"] (settingItems out.obj.ms m) (by decide)).1 (by simp [settingItems])
  have hd1' : addOptions (optionItems out.obj.opts out.obj.extra) = .ok d1 := hd1
  have hd2' : addModel (settingItems out.obj.ms m) = .ok d2 := hd2
  have hidx : ∀ i, (parindOf flags i).val < (reportOf out).size := by
    intro i
    have hg : (((List.finRange N).filter flags).map (fun k => k.val))[i.val]? = some (parindOf flags i).val := by
      rw [List.getElem?_map, ← ofFn_parindOf]
      simp
    obtain ⟨_, _, ha, _⟩ := (C74_qcovorig h).1 _ _ _ _ hg hg
    exact ha
  unfold resultsAfter runCalls
  generalize hA : ({ nsimu := out.obj.opts.nsimu, theta := out.results.theta, parind := parindOf flags, loc := .other
                     names := fun k => (out.obj.specs k).name, lower := fun k => (out.obj.specs k).minimum
                     upper := fun k => (out.obj.specs k).maximum, total := out.final.rejected.total
                     outside := out.final.rejected.outside, R := out.final.cov.R, cov := out.final.cov.covchain
                     mean := out.final.cov.meanchain, qcovScale := out.final.cov.qcovScale, simutime := .other
                     qcovorig := qcovorigOf (setupCovarianceMatrix out.obj.extra.qcov
                       (fun k => setupPriorSigma (out.obj.specs k).priorSigma) fun k => (out.obj.specs k).theta0)
                     original := .other } : BasicArgs F N (nS flags)) = A
  obtain ⟨w1, b1, bb, bi, bk, l1, l2, l3, -, l5, l6, l7, l8, -, l10, l11, l12, l13, l14⟩ :=
    addBasic_ok (a := A) (by rw [← hA]; change out.obj.opts.nsimu ≠ 0; omega) (by rw [← hA]; exact hidx)
      (fun _ => out.final.dr.iacce.map fun k : ℕ => (k : ℤ))
  have stage : ∃ w2, (∀ cs : List (ResCall F N (nS flags)), resRun w1 ((if 1 < out.obj.opts.ntry then
        [ResCall.dram out.obj.extra.drscale
          (rdrEntry out.final.cov.RDR)
          out.final.rejected.total 0 out.final.dr.steps]
       else []) ++ cs) = resRun w2 cs) ∧
      w2.results.map Prod.fst = basicKeys ++ (if 1 < o.opts.ntry then dramKeys else []) ∧
      (∀ k ∉ dramKeys, w2.results.lookup k = w1.results.lookup k) ∧
      (1 < o.opts.ntry → ∃ l k, out.results.dram = some (l, k) ∧ w2.results.lookup "iacce" = some (.counters 0) ∧
        w2.iacce 0 = l ∧ w2.results.lookup "alpha_count" = some (.int k) ∧
        w2.results.lookup "drscale" = some (.vec out.obj.extra.drscale) ∧
        w2.results.lookup "RDR" = some (rdrEntry out.final.cov.RDR)) := by
    rw [hnt]
    by_cases hc : 1 < o.opts.ntry
    · unfold dramResults at g1
      rw [hI, hnt, if_pos hc] at g1
      have g1' : ∃ l k, addDram out.obj.opts.nsimu.toNat out.final.rejected.total out.final.dr = .ok (l, k) ∧
          out.results.dram = some (l, k) := by
        split at g1
        · cases g1
        · obtain ⟨⟨l, k⟩, e1, e2⟩ := bind_ok.1 g1
          exact ⟨l, k, e1, (Except.ok.inj e2).symm⟩
      obtain ⟨l, k, e1, e2⟩ := g1'
      unfold addDram at e1
      split at e1
      · cases e1
      · next x rest hx =>
        cases e1
        simp only [if_pos hc]
        generalize rdrEntry out.final.cov.RDR = rdr
        have hw1 : w1.iacce 0 = (x : ℤ) :: rest.map fun k : ℕ => (k : ℤ) := by rw [bi]; simp [hx]
        have hlk : w1.results.lookup "nsimu" = some (.int o.opts.nsimu) := by rw [l13, ← hA]; simp [hns]
        refine ⟨(addDramCall out.obj.extra.drscale rdr out.final.rejected.total 0 out.final.dr.steps w1).1,
          fun cs => ?_, ?_, fun k hk => addDram_other _ _ _ _ _ _ hk, fun _ => ⟨_, _, e2, ?_⟩⟩
        · simp only [List.singleton_append, resRun, resStep, addDramCall, bb, if_true, hlk, put_iacce, hw1]
        · simp only [addDramCall, bb, if_true, hlk, put_iacce, hw1]
          simp only [ResWorld.put, keys_dictPut, bk]
          simp [basicKeys, dramKeys]
        · simp only [addDramCall, bb, if_true, hlk, put_iacce, hw1]
          refine ⟨by simp [lookup_put], ?_, by simp [lookup_put], by simp [lookup_put], by simp [lookup_put]⟩
          rw [hns, Int.toNat_of_nonneg (by omega)]
    · simp only [if_neg hc]
      exact ⟨w1, fun cs => rfl, by rw [bk, List.append_nil], fun _ _ => rfl, fun h => absurd h hc⟩
  obtain ⟨w2, r2, k2, o2, dr2⟩ := stage
  rw [List.append_assoc, List.singleton_append, resRun, resStep, b1]
  simp only []
  rw [r2]
  simp only [resRun, resStep, hd1', hd2']
  refine ⟨_, rfl, ?_, ?_⟩
  · simp only [ResWorld.put, keys_dictPut, k2]
    by_cases hc : 1 < o.opts.ntry
    · simp [basicKeys, dramKeys, hc]
    · simp [basicKeys, hc]
  · simp only [lookup_put]
    have hkeep : ∀ k ∈ basicKeys, w2.results.lookup k = w1.results.lookup k := fun k hk =>
      o2 k fun hd => by
        simp only [dramKeys, basicKeys, List.mem_cons, List.not_mem_nil, or_false] at hd hk
        rcases hd with rfl | rfl | rfl | rfl <;> simp at hk
    subst hA
    refine ⟨?_, ?_, ?_, ?_, ?_, ?_, ?_, ?_, ?_, ?_, ?_, ?_, ?_, ?_, ?_, ?_, ?_, ?_, ?_, ?_, ?_, ?_, ?_⟩
    · simpa [hkeep "theta" (by decide)] using l1
    · simpa [hkeep "parind" (by decide), ← ofFn_parindOf] using l2
    · rw [g3]
      have e := hkeep "names" (by decide)
      rw [l10, ofFn_parindOf] at e
      simp only [h5] at e
      simpa [sampledIdx] using e
    · simpa [hkeep "nsimu" (by decide), hns] using l13
    · have e := hkeep "total_rejected" (by decide)
      rw [l3, hns, ← g4, hr1] at e
      simpa using e
    · have e := hkeep "R" (by decide)
      rw [l5, ← g9] at e
      simpa using e
    · have e := hkeep "qcov" (by decide)
      rw [l6, ← g10] at e
      simpa using e
    · have e := hkeep "qcovorig" (by decide)
      rw [l14, ← g10] at e
      simp only [String.reduceEq, if_false]
      exact e
    · simp [g6]
    · simp [g7]
    · intro c hc
      rw [g8] at hc
      simp [hc, resOrNone]
    · intro hc
      rw [g8] at hc
      simp [hc, resOrNone]
    · exact ⟨d1, hd1, by simp⟩
    · exact ⟨d2, hd2, by simp⟩
    · simp
    · intro hc
      obtain ⟨l, k, e1, e2, e3, e4, e5, e6⟩ := dr2 hc
      refine ⟨l, k, e1, by simpa using e2, e3, by simpa using e4, by simpa using e5, fun Ms hM => ?_, fun hM => ?_⟩
      · rw [hM] at e6
        simp only [String.reduceEq, if_false]
        exact e6
      · rw [hM] at e6
        simp only [String.reduceEq, if_false]
        exact e6
    · intro M hM
      rw [g11] at hM
      have e := hkeep "cov" (by decide)
      rw [l7, hM] at e
      simp only [String.reduceEq, if_false]
      exact e
    · intro hM
      rw [g11] at hM
      have e := hkeep "cov" (by decide)
      rw [l7, hM] at e
      simp only [String.reduceEq, if_false]
      exact e
    · intro v hv
      rw [g12] at hv
      have e := hkeep "mean" (by decide)
      rw [l8, hv] at e
      simp only [String.reduceEq, if_false]
      exact e
    · intro hv
      rw [g12] at hv
      have e := hkeep "mean" (by decide)
      rw [l8, hv] at e
      simp only [String.reduceEq, if_false]
      exact e
    · have e := hkeep "limits" (by decide)
      rw [l12, ofFn_parindOf] at e
      simp only [String.reduceEq, if_false]
      exact e
    · have e := hkeep "allnames" (by decide)
      rw [l11] at e
      simp only [String.reduceEq, if_false]
      exact e
    · have hk := (C148_removekeys (V := ResVal F) ["chain", "s2chain", "sschain"]
        (((((((w2.put "simulation_options" (.dict d1)).put "model_settings" (.dict d2)).put "prior"
          (.prior (List.ofFn (priorEntry out).1) (List.ofFn (priorEntry out).2))).put "chain"
          (.rows (out.final.chain.map List.ofFn))).put "s2chain"
          (resOrNone .rows (out.final.s2chain.map fun l => l.map List.ofFn))).put "sschain"
          (.rows (out.final.sschain.map List.ofFn))).results) (by decide)).1 (by
            intro k hk
            simp only [mem_keys_put]
            simp only [List.mem_cons, List.not_mem_nil, or_false] at hk
            rcases hk with rfl | rfl | rfl <;> simp)
      obtain ⟨r, hr, hr2⟩ := hk
      refine ⟨r, hr, fun k => ?_⟩
      rw [hr2]
      simp only [lookup_put]

/-- **C154, exceptions.** Of several calls one after the other the first that raises ends them with its exception,
after the calls before it have had their effect; if none raises, all have had it. -/
theorem C154_first_exception (w : ResWorld F) (cs : List (ResCall F N n)) :
    (∀ e, resRun w cs = .error e ↔ ∃ pre c post, cs = pre ++ c :: post ∧
      (∀ a d b, pre = a ++ d :: b → ∀ e, (resStep (resSteps w a) d).2 ≠ .raised e) ∧
      (resStep (resSteps w pre) c).2 = .raised e) ∧
    ∀ w', resRun w cs = .ok w' ↔ w' = resSteps w cs ∧
      ∀ a d b, cs = a ++ d :: b → ∀ e, (resStep (resSteps w a) d).2 ≠ .raised e := by
  induction cs generalizing w with
  | nil => simp [resRun, resSteps, eq_comm]
  | cons c cs ih =>
    rcases hc : resStep w c with ⟨w1, r | e1⟩
    · have hr : resRun w (c :: cs) = resRun w1 cs := by simp [resRun, hc]
      have hs : ∀ a, resSteps w (c :: a) = resSteps w1 a := fun a => by simp [resSteps, hc]
      have hq : ∀ l : List (ResCall F N n), (∀ a d b, l = a ++ d :: b → ∀ e, (resStep (resSteps w1 a) d).2 ≠ .raised e) ↔
          ∀ a d b, c :: l = a ++ d :: b → ∀ e, (resStep (resSteps w a) d).2 ≠ .raised e := by
        intro l
        constructor
        · intro h a d b hl e
          rcases a with _ | ⟨x, a⟩
          · obtain ⟨rfl, rfl⟩ := List.cons.inj hl
            simp [resSteps, hc]
          · obtain ⟨rfl, hl'⟩ := List.cons.inj hl
            rw [hs]
            exact h a d b hl' e
        · intro h a d b hl e
          have := h (c :: a) d b (by rw [hl]; rfl) e
          rwa [hs] at this
      rw [hr]
      refine ⟨fun e => ?_, fun w' => ?_⟩
      · rw [(ih w1).1]
        constructor
        · rintro ⟨pre, d, post, rfl, h1, h2⟩
          exact ⟨c :: pre, d, post, rfl, (hq pre).1 h1, by rw [hs]; exact h2⟩
        · rintro ⟨pre, d, post, hl, h1, h2⟩
          rcases pre with _ | ⟨x, pre⟩
          · obtain ⟨rfl, rfl⟩ := List.cons.inj hl
            simp [resSteps, hc] at h2
          · obtain ⟨rfl, hl'⟩ := List.cons.inj hl
            exact ⟨pre, d, post, hl', (hq pre).2 h1, by rw [hs] at h2; exact h2⟩
      · rw [(ih w1).2, hs, hq]
    · have hr : resRun w (c :: cs) = .error e1 := by simp [resRun, hc]
      have h0 : (resStep (resSteps (N := N) (n := n) w []) c).2 = .raised e1 := by simp [resSteps, hc]
      rw [hr]
      refine ⟨fun e => ?_, fun w' => ?_⟩
      · constructor
        · rintro ⟨⟩
          exact ⟨[], c, cs, rfl, by simp, h0⟩
        · rintro ⟨pre, d, post, hl, h1, h2⟩
          rcases pre with _ | ⟨x, pre⟩
          · obtain ⟨rfl, rfl⟩ := List.cons.inj hl
            rw [h0] at h2
            cases h2; rfl
          · obtain ⟨rfl, hl⟩ := List.cons.inj hl
            exact absurd h0 (h1 [] c pre rfl e1)
      · constructor
        · rintro ⟨⟩
        · rintro ⟨-, h⟩
          exact absurd h0 (h [] c cs rfl e1)

/-- `add_dram` with an empty array of counters raises and the chain is not added. -/
example : resRun (newResults fun _ => []) [.basic (demoBasic 5), .dram [2] .none 1 0 3, .chain [[1]]] =
    .error .indexError :=
  ((C154_first_exception _ _).1 _).2 ⟨[.basic (demoBasic 5)], .dram [2] .none 1 0 3, [.chain [[1]]], rfl,
    by
      intro a d b h e
      rcases a with _ | ⟨x, a⟩
      · obtain ⟨rfl, -⟩ := List.cons.inj h
        intro h; revert h
        have : (resStep (resSteps (N := 2) (n := 1) (newResults fun _ => []) []) (.basic (demoBasic 5))).2 =
            .returned none := by
          decide +kernel
        rw [this]; simp
      · obtain ⟨-, h⟩ := List.cons.inj h
        simp at h,
    by decide +kernel⟩

/-- A run of five steps with delayed rejection. -/
example : ∃ (out : RunOut ℚ ℕ Toy.flags 1) (w : ResWorld ℚ), Toy.run .dram 5 = .ok out ∧ resultsAfter out = .ok w ∧
    w.results.lookup "nsimu" = some (.int 5) ∧ w.results.lookup "iacce" = some (.counters 0) ∧
    "RDR" ∈ w.results.map Prod.fst := by
  obtain ⟨out, h⟩ := exists_ok (x := Toy.run .dram 5) (by decide +kernel)
  obtain ⟨w, h1, h2, -, -, -, h3, -, -, -, -, -, -, -, -, -, -, -, h4, -⟩ := C154_run h
  obtain ⟨_, _, -, h5, -⟩ := h4 (by decide)
  exact ⟨out, w, h, h1, h3, h5, by rw [h2, if_pos (by decide)]; decide⟩

end Verif
