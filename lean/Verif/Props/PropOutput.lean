import Verif.Model.PropObs
import Verif.Props.Coverage
import Verif.Props.IntervalCoverage

/-! # Outputs of `calculate_intervals`

C128: for every quantity of interest the returned arrays hold the model responses at the rows used, and the responses
with a normal error of the variance that belongs to row and quantity. -/

set_option linter.unusedSectionVars false

namespace Verif
open MeasureTheory Function ProbabilityTheory
open scoped ENNReal Matrix

section loops
variable {F D : Type} {N p : ℕ}

theorem appendAt_ofFn {α : Type} {c : ℕ} (a : Fin c → List α) (jj : Fin c) (x : α) :
    appendAt (List.ofFn a) jj x = .ok (List.ofFn (Function.update a jj (a jj ++ [x]))) := by
  have h1 : pyGet (List.ofFn a) jj = .ok (a jj) := by rw [pyGet_ok]; simp
  unfold appendAt
  rw [h1]
  change pySet (List.ofFn a) jj (a jj ++ [x]) = _
  unfold pySet
  rw [if_pos (by simp)]
  congr 1
  refine List.ext_getElem? fun i => ?_
  rw [List.getElem?_set, List.getElem?_ofFn]
  by_cases hi : jj.val = i
  · subst hi
    simp
  · rw [if_neg hi, List.getElem?_ofFn]
    split
    · rw [Function.update_of_ne]
      intro h
      exact hi (congrArg Fin.val h).symm
    · rfl

open Classical in
/-- the column loop: every column is appended to its list, and its observations to theirs -/
theorem propColumns_ok {s2 : S2Chain F} {obs : ℕ → ℕ → S2Val F → ModelOut F → Except PyErr (List F)} {kk r c : ℕ}
    {Y : Fin r → Fin c → F} {o : Fin c → List F}
    (hs : s2 = .none ∨ ∀ jj : Fin c, ∃ v, s2At s2 kk (some c) jj = .ok v ∧
      obs kk jj v (.vec (List.ofFn fun i => Y i jj)) = .ok (o jj)) :
    ∀ (js : List (Fin c)) (a b : Fin c → List (List F)), js.Nodup →
      propColumns s2 obs kk (.mat r c Y) c (js.map Fin.val) (List.ofFn a, List.ofFn b) =
        .ok (List.ofFn (fun jj => if jj ∈ js then a jj ++ [List.ofFn fun i => Y i jj] else a jj),
          List.ofFn (fun jj => if jj ∈ js ∧ s2 ≠ .none then b jj ++ [o jj] else b jj)) := by
  intro js
  induction js with
  | nil => intro a b _; simp [propColumns]
  | cons j js ih =>
    intro a b hn
    obtain ⟨hj, hn⟩ := List.nodup_cons.1 hn
    have hcol : (ModelOut.mat r c Y).col j = .ok (List.ofFn fun i => Y i j) := by
      simp [ModelOut.col]
    rw [List.map_cons]
    unfold propColumns
    rw [hcol, ok_bind]
    dsimp only
    rw [appendAt_ofFn, ok_bind]
    have hpi : (match s2 with
      | .none => .ok (List.ofFn b)
      | s2 => (s2At s2 kk (some c) j).bind fun v => (obs kk j v (.vec (List.ofFn fun i => Y i j))).bind fun o =>
          appendAt (List.ofFn b) j o : Except PyErr _) =
        .ok (List.ofFn (if s2 = .none then b else Function.update b j (b j ++ [o j]))) := by
      rcases hs with rfl | hs
      · simp
      · obtain ⟨v, h1, h2⟩ := hs j
        cases s2 with
        | none => simp [s2At] at h1
        | one l =>
          dsimp only
          rw [h1]
          change Except.bind (obs kk j v _) _ = _
          rw [h2]
          change appendAt (List.ofFn b) j (o j) = _
          rw [appendAt_ofFn, if_neg (by simp)]
        | two k rows =>
          dsimp only
          rw [h1]
          change Except.bind (obs kk j v _) _ = _
          rw [h2]
          change appendAt (List.ofFn b) j (o j) = _
          rw [appendAt_ofFn, if_neg (by simp)]
    refine (congrArg (fun e : Except PyErr (List (List (List F))) => e >>= fun pis =>
      propColumns s2 obs kk (.mat r c Y) c (js.map Fin.val)
        (List.ofFn (Function.update a j (a j ++ [List.ofFn fun i => Y i j])), pis)) hpi).trans ?_
    rw [ok_bind, ih _ _ hn]
    congr 2
    · congr 1
      funext i
      by_cases hi : i = j
      · subst hi
        simp [hj]
      · simp [hi]
    · congr 1
      funext i
      by_cases hs0 : s2 = .none
      · simp [hs0]
      · by_cases hi : i = j
        · subst hi
          simp [hj, hs0]
        · simp [hi, hs0]

/-- The model returns `Y`, an array of `r` points and `c` quantities; a single quantity may come in any shape. -/
def OutputIs {r c : ℕ} (z : ModelOut F) (Y : Fin r → Fin c → F) : Prop :=
  (∃ h : c = 1, z.isMultiple = false ∧ z.flat = List.ofFn fun i => Y i ⟨0, by omega⟩) ∨
  (2 ≤ r ∧ 2 ≤ c ∧ z = .mat r c Y)

open Classical in
theorem propLoop_one {parind : Fin p → Fin N} (hinj : Function.Injective parind)
    {chain : List (Vec F p)} {data : D} {model : Vec F N → D → Except PyErr (ModelOut F)} {s2 : S2Chain F}
    {obs : ℕ → ℕ → S2Val F → ModelOut F → Except PyErr (List F)} {q0 : Vec F N} {y o : ℕ → List F} :
    ∀ {iis : List ℤ} {kk : ℕ} {st : PropState F N},
      (∀ k, (∀ j, parind j ≠ k) → st.q k = q0 k) → st.multiple = false →
      (∀ i, i < iis.length → ∃ row, chain[kk + i]? = some row ∧ ∀ w, AtRow parind q0 w row →
        ∃ z, model w data = .ok z ∧ z.isMultiple = false ∧ z.flat = y (kk + i) ∧
          (s2 = .none ∨ ∃ v, s2At s2 (kk + i) none 0 = .ok v ∧ obs (kk + i) 0 v z = .ok (o (kk + i)))) →
      ∃ st', propLoop parind chain data model s2 obs kk iis st = .ok st' ∧ st'.multiple = false ∧
        st'.ci = st.ci ++ (List.ofFn fun i : Fin iis.length => y (kk + i)) ∧
        (s2 ≠ .none → st'.pi = st.pi ++ List.ofFn fun i : Fin iis.length => o (kk + i)) := by
  intro iis
  induction iis with
  | nil => intro kk st _ hm _; exact ⟨st, rfl, hm, by simp, fun _ => by simp⟩
  | cons isa rest ih =>
    intro kk st hq hm hrows
    obtain ⟨row, hrow, hmod⟩ := hrows 0 (by simp)
    rw [Nat.add_zero] at hrow hmod
    have hat := setParams_atRow hinj hq row
    obtain ⟨z, hz, hz1, hz2, hs⟩ := hmod _ hat
    have hpi : (match s2 with
      | .none => .ok st.pi
      | s2 => (s2At s2 kk none 0).bind fun v => (obs kk 0 v z).map fun o => st.pi ++ [o] : Except PyErr _) =
        .ok (if s2 = .none then st.pi else st.pi ++ [o kk]) := by
      rcases hs with rfl | hs
      · simp
      · obtain ⟨v, h1, h2⟩ := hs
        cases s2 with
        | none => simp [s2At] at h1
        | one l => dsimp only; rw [h1]; change Except.map _ (obs kk 0 v z) = _; rw [h2, if_neg (by simp)]; rfl
        | two k rows => dsimp only; rw [h1]; change Except.map _ (obs kk 0 v z) = _; rw [h2, if_neg (by simp)]; rfl
    obtain ⟨s1, hs1⟩ : ∃ s1 : PropState F N, s1 = { st with
        q := setParams parind st.q row, multiple := false, ci := st.ci ++ [y kk], pi := if s2 = .none then st.pi else st.pi ++ [o kk],
        evals := st.evals ++ [setParams parind st.q row] } := ⟨_, rfl⟩
    have hstep : propStep parind chain data model s2 obs kk isa st = .ok s1 := by
      unfold propStep pyGet
      rw [hrow]
      simp only [ok_bind]
      rw [hz]
      simp only [ok_bind, hm, hz1, Bool.or_self, if_true, hz2]
      refine (congrArg (fun e : Except PyErr (List (List F)) => e >>= fun pi =>
        (Except.ok { st with q := setParams parind st.q row, multiple := false, ci := st.ci ++ [y kk], pi := pi,
                             evals := st.evals ++ [setParams parind st.q row] } : Except PyErr (PropState F N))) hpi).trans ?_
      rw [hs1]
      rfl
    obtain ⟨st', h1, h2, h3, h4⟩ := ih (kk := kk + 1) (st := s1) (by rw [hs1]; exact hat.2) (by rw [hs1])
      (fun i hi => by
        obtain ⟨row', h1, h2⟩ := hrows (i + 1) (by simpa using hi)
        exact ⟨row', by rw [← h1]; congr 1; omega, fun w hw => by
          rw [show kk + 1 + i = kk + (i + 1) by omega]
          exact h2 w hw⟩)
    have hsucc : ∀ f : ℕ → List F, f kk :: (List.ofFn fun i : Fin rest.length => f (kk + 1 + i)) =
        List.ofFn fun i : Fin (isa :: rest).length => f (kk + i) := by
      intro f
      have : (fun i : Fin rest.length => f (kk + 1 + i)) = fun i : Fin rest.length => f (kk + (i + 1 : ℕ)) := by
        funext i; congr 1; omega
      rw [this]
      exact (List.ofFn_succ (f := fun i : Fin (rest.length + 1) => f (kk + i))).symm
    refine ⟨st', ?_, h2, ?_, fun hn => ?_⟩
    · unfold propLoop
      rw [hstep]
      exact h1
    · rw [h3, hs1]
      simp only [List.append_assoc, List.singleton_append]
      rw [hsucc]
    · rw [h4 hn, hs1]
      simp only [hn, if_false, List.append_assoc, List.singleton_append]
      rw [hsucc]

open Classical in
theorem propLoop_several {parind : Fin p → Fin N} (hinj : Function.Injective parind)
    {chain : List (Vec F p)} {data : D} {model : Vec F N → D → Except PyErr (ModelOut F)} {s2 : S2Chain F}
    {obs : ℕ → ℕ → S2Val F → ModelOut F → Except PyErr (List F)} {q0 : Vec F N} {r c : ℕ} (hr : 2 ≤ r) (hc : 2 ≤ c)
    {Y : ℕ → Fin r → Fin c → F} {o : ℕ → Fin c → List F} :
    ∀ {iis : List ℤ} {kk : ℕ} {st : PropState F N} {a b : Fin c → List (List F)},
      (∀ k, (∀ j, parind j ≠ k) → st.q k = q0 k) →
      (kk = 0 ∧ a = (fun _ => []) ∧ b = (fun _ => []) ∨
        kk ≠ 0 ∧ st.multiple = true ∧ st.cis = some (List.ofFn a) ∧ st.pis = some (List.ofFn b)) →
      (∀ i, i < iis.length → ∃ row, chain[kk + i]? = some row ∧ ∀ w, AtRow parind q0 w row →
        model w data = .ok (.mat r c (Y (kk + i)))) →
      (s2 = .none ∨ ∀ i, i < iis.length → ∀ jj : Fin c, ∃ v, s2At s2 (kk + i) (some c) jj = .ok v ∧
        obs (kk + i) jj v (.vec (List.ofFn fun a => Y (kk + i) a jj)) = .ok (o (kk + i) jj)) →
      kk + iis.length ≠ 0 →
      ∃ st', propLoop parind chain data model s2 obs kk iis st = .ok st' ∧ st'.multiple = true ∧
        st'.cis = some (List.ofFn fun jj => a jj ++ List.ofFn fun i : Fin iis.length =>
          List.ofFn fun e => Y (kk + i) e jj) ∧
        ∃ b', st'.pis = some (List.ofFn b') ∧
          (s2 ≠ .none → ∀ jj, b' jj = b jj ++ List.ofFn fun i : Fin iis.length => o (kk + i) jj) := by
  intro iis
  induction iis with
  | nil =>
    intro kk st a b _ hst _ _ hne
    rcases hst with ⟨h, -⟩ | ⟨-, h1, h2, h3⟩
    · simp [h] at hne
    · exact ⟨st, rfl, h1, by simp [h2], b, h3, fun _ jj => by simp⟩
  | cons isa rest ih =>
    intro kk st a b hq hst hrows hs _
    obtain ⟨row, hrow, hmod⟩ := hrows 0 (by simp)
    rw [Nat.add_zero] at hrow hmod
    have hat := setParams_atRow hinj hq row
    have hz := hmod _ hat
    have hmul : (ModelOut.mat r c (Y kk)).isMultiple = true := by
      simp only [ModelOut.isMultiple, ne_eq, Bool.and_eq_true, decide_eq_true_eq]
      constructor <;> intro h <;> nlinarith
    have hcis : (if kk = 0 then .ok (List.replicate c []) else orRaise st.cis .nameError : Except PyErr _) =
        .ok (List.ofFn a) := by
      rcases hst with ⟨h, rfl, -⟩ | ⟨h, -, h2, -⟩
      · rw [if_pos h, List.ofFn_const]
      · rw [if_neg h, h2]; rfl
    have hpis : (if kk = 0 then .ok (List.replicate c []) else orRaise st.pis .nameError : Except PyErr _) =
        .ok (List.ofFn b) := by
      rcases hst with ⟨h, -, rfl⟩ | ⟨h, -, -, h2⟩
      · rw [if_pos h, List.ofFn_const]
      · rw [if_neg h, h2]; rfl
    have hcols := propColumns_ok (s2 := s2) (obs := obs) (kk := kk) (Y := Y kk) (o := o kk)
      (hs.imp id fun hs jj => by simpa using hs 0 (by simp) jj) (List.finRange c) a b (List.nodup_finRange c)
    have hrange : (List.finRange c).map Fin.val = List.range c := by simp
    rw [hrange] at hcols
    simp only [List.mem_finRange, if_true, true_and] at hcols
    obtain ⟨s1, hs1⟩ : ∃ s1 : PropState F N, s1 = { st with
        q := setParams parind st.q row, multiple := true,
        cis := some (List.ofFn fun jj => a jj ++ [List.ofFn fun i => Y kk i jj]),
        pis := some (List.ofFn fun jj => if s2 ≠ .none then b jj ++ [o kk jj] else b jj),
        evals := st.evals ++ [setParams parind st.q row] } := ⟨_, rfl⟩
    have hstep : propStep parind chain data model s2 obs kk isa st = .ok s1 := by
      unfold propStep
      have hrow' : pyGet chain kk = .ok row := pyGet_ok.2 hrow
      rw [hrow']
      simp only [ok_bind]
      rw [hz]
      simp only [ok_bind, hmul, Bool.or_true, Bool.true_eq_false, if_false]
      have hn : (ModelOut.mat r c (Y kk)).ncol = .ok c := rfl
      rw [hn, ok_bind, hcis, ok_bind, hpis, ok_bind, hcols, ok_bind, hs1]
    obtain ⟨st', h1, h2, h3, b', h4, h5⟩ := ih (kk := kk + 1) (st := s1)
      (a := fun jj => a jj ++ [List.ofFn fun i => Y kk i jj])
      (b := fun jj => if s2 ≠ .none then b jj ++ [o kk jj] else b jj)
      (by rw [hs1]; exact hat.2) (.inr ⟨by omega, by rw [hs1], by rw [hs1], by rw [hs1]⟩)
      (fun i hi => by
        obtain ⟨row', h1, h2⟩ := hrows (i + 1) (by simpa using hi)
        refine ⟨row', by rw [← h1]; congr 1; omega, fun w hw => ?_⟩
        rw [show kk + 1 + i = kk + (i + 1) by omega]
        exact h2 w hw)
      (hs.imp id fun hs i hi jj => by
        obtain ⟨v, h1, h2⟩ := hs (i + 1) (by simpa using hi) jj
        rw [show kk + 1 + i = kk + (i + 1) by omega]
        exact ⟨v, h1, h2⟩) (by omega)
    have hsucc : ∀ f : ℕ → List F, f kk :: (List.ofFn fun i : Fin rest.length => f (kk + 1 + i)) =
        List.ofFn fun i : Fin (isa :: rest).length => f (kk + i) := by
      intro f
      have : (fun i : Fin rest.length => f (kk + 1 + i)) = fun i : Fin rest.length => f (kk + (i + 1 : ℕ)) := by
        funext i; congr 1; omega
      rw [this]
      exact (List.ofFn_succ (f := fun i : Fin (rest.length + 1) => f (kk + i))).symm
    refine ⟨st', ?_, h2, ?_, b', h4, fun hn jj => ?_⟩
    · unfold propLoop
      rw [hstep]
      exact h1
    · rw [h3]
      congr 2
      funext jj
      rw [List.append_assoc, List.singleton_append, ← hsucc fun k => List.ofFn fun e => Y k e jj]
    · rw [h5 hn jj, if_pos hn, List.append_assoc, List.singleton_append, ← hsucc fun k => o k jj]

end loops

/-! ### The variance of a row and a quantity -/

section variance
variable {F : Type} [PyFloat F]

/-- `v` is the error variance of quantity `jj` at row `kk` of a chain of `nsimu` rows, for a model with `c` quantities:
a number is used for all; a vector has an entry for every row, or else an entry for every quantity, or one for all; a
matrix has a row for every row of the chain, or one for all, with an entry for every quantity or one for all. -/
def VarianceOf (s2 : F ⊕ S2Chain F) (nsimu c kk jj : ℕ) (v : F) : Prop :=
  match s2 with
  | .inl x => v = x
  | .inr .none => False
  | .inr (.one l) => (l.length = nsimu ∧ l[kk]? = some v) ∨
      (l.length ≠ nsimu ∧ (l.length = c ∧ l[jj]? = some v ∨ l.length = 1 ∧ l[0]? = some v))
  | .inr (.two k rows) => ∃ r : Fin k → F, (rows.length = nsimu ∧ rows[kk]? = some r ∨ nsimu ≠ 1 ∧ rows = [r]) ∧
      (k = c ∧ (List.ofFn r)[jj]? = some v ∨ k = 1 ∧ (List.ofFn r)[0]? = some v)

theorem ofFn_single {α : Type} {k : ℕ} (hk : k = 1) {r : Fin k → α} {v : α} (h : (List.ofFn r)[0]? = some v) :
    List.ofFn r = [v] := by
  subst hk
  rw [List.getElem?_ofFn, dif_pos (by omega)] at h
  cases h
  simp

theorem s2At_row {k c jj kk : ℕ} (hjj : jj < c) {rows : List (Fin k → F)} {r : Fin k → F} {v : F}
    (hr : rows[kk]? = some r) (h : k = c ∧ (List.ofFn r)[jj]? = some v ∨ k = 1 ∧ (List.ofFn r)[0]? = some v) :
    ∃ val, s2At (.two k rows) kk (if c = 1 then none else some c) jj = .ok val ∧ (val = .num v ∨ val = .row [v]) := by
  have hg : pyGet rows kk = .ok r := pyGet_ok.2 hr
  unfold s2At
  dsimp only
  by_cases hc1 : c = 1
  · rw [if_pos hc1, if_neg (by simp), hg]
    have hk : k = 1 ∧ (List.ofFn r)[0]? = some v := by
      rcases h with ⟨h1, h2⟩ | h
      · refine ⟨by omega, ?_⟩
        rwa [show jj = 0 by omega] at h2
      · exact h
    exact ⟨_, rfl, .inr (congrArg S2Val.row (ofFn_single hk.1 hk.2))⟩
  · rw [if_neg hc1]
    by_cases hk : k = c
    · rw [if_pos (by rw [hk]), hg]
      have h2 : (List.ofFn r)[jj]? = some v := by
        rcases h with h | h
        · exact h.2
        · omega
      refine ⟨.num v, ?_, .inl rfl⟩
      change Except.map S2Val.num (pyGet (List.ofFn r) jj) = _
      rw [pyGet_ok.2 h2]
      rfl
    · rw [if_neg (by simpa using fun h => hk h.symm), hg]
      have h2 : k = 1 ∧ (List.ofFn r)[0]? = some v := by
        rcases h with h | h
        · exact absurd h.1 hk
        · exact h
      exact ⟨_, rfl, .inr (congrArg S2Val.row (ofFn_single h2.1 h2.2))⟩

/-- the variance the code uses -/
theorem VarianceOf.used (hone : ∀ x : F, lit 1 * x = x ∧ x * lit 1 = x) {s2 : F ⊕ S2Chain F} {nsimu c : ℕ}
    (hc : 1 ≤ c) {n : ℕ} (hn : n ≤ nsimu) (hn0 : 0 < n) {V : ℕ → ℕ → F}
    (h : ∀ kk < n, ∀ jj < c, VarianceOf s2 nsimu c kk jj (V kk jj)) :
    ∃ s, checkS2chain s2 nsimu = .ok s ∧ s ≠ .none ∧ ∀ kk < n, ∀ jj < c,
      ∃ val, s2At s kk (if c = 1 then none else some c) jj = .ok val ∧ (val = .num (V kk jj) ∨ val = .row [V kk jj]) := by
  have hrep : ∀ {α : Type} (x : α) kk, kk < n → (List.replicate nsimu x)[kk]? = some x := fun x kk hk => by
    rw [List.getElem?_replicate, if_pos (by omega)]
  match s2, h with
  | .inl x, h =>
    refine ⟨_, rfl, by simp, fun kk hk jj hj => ⟨.num x, ?_, .inl (by rw [show V kk jj = x from h kk hk jj hj])⟩⟩
    unfold s2At
    dsimp only
    rw [pyGet_ok.2 (hrep _ kk hk), (hone x).1]
    rfl
  | .inr .none, h => exact absurd (h 0 hn0 0 (by omega)) id
  | .inr (.one l), h =>
    by_cases hl : l.length = nsimu
    · refine ⟨.one l, if_neg (by simpa using hl), by simp, fun kk hk jj hj => ?_⟩
      have hv : l[kk]? = some (V kk jj) := by
        rcases h kk hk jj hj with h | h
        · exact h.2
        · exact absurd hl h.1
      refine ⟨.num (V kk jj), ?_, .inl rfl⟩
      unfold s2At
      dsimp only
      rw [pyGet_ok.2 hv]
      rfl
    · refine ⟨_, if_pos hl, by simp, fun kk hk jj hj => ?_⟩
      refine s2At_row hj (hrep _ kk hk) ?_
      have hof : (List.ofFn fun i : Fin l.length => l.get i * lit 1) = l := by
        simp only [(hone _).2]
        exact List.ofFn_get l
      rw [hof]
      rcases h kk hk jj hj with h | h
      · exact absurd h.1 hl
      · exact h.2
  | .inr (.two k rows), h =>
    by_cases hl : rows.length = nsimu
    · refine ⟨.two k rows, if_neg (by simpa using hl), by simp, fun kk hk jj hj => ?_⟩
      obtain ⟨r, h1, h2⟩ := h kk hk jj hj
      refine s2At_row hj (r := r) ?_ h2
      rcases h1 with h1 | ⟨h1, h3⟩
      · exact h1.2
      · rw [h3] at hl; simp at hl; omega
    · obtain ⟨r, hr⟩ : ∃ r, rows = [r] := by
        obtain ⟨r, h1, -⟩ := h 0 hn0 0 (by omega)
        rcases h1 with h1 | h1
        · exact absurd h1.1 hl
        · exact ⟨r, h1.2⟩
      subst hr
      refine ⟨_, if_pos hl, by simp, fun kk hk jj hj => ?_⟩
      refine s2At_row hj (hrep _ kk hk) ?_
      have hof : (List.ofFn fun i : Fin k => r i * lit 1) = List.ofFn r := by simp only [(hone _).2]
      rw [hof]
      obtain ⟨r', h1, h2⟩ := h kk hk jj hj
      have : r' = r := by
        rcases h1 with h1 | h1
        · exact absurd h1.1 hl
        · exact (List.cons.inj h1.2).1.symm
      rw [← this]
      exact h2

/-- an observation with response `y`, normal draw `z` and error variance `s2`, for the three kinds of errors -/
def Observation (sstype : ℤ) (y z s2 o : F) : Prop :=
  (sstype = 0 ∧ o = y + z * PyFloat.sqrt s2) ∨
  (sstype = 1 ∧ ∃ w, w = PyFloat.sqrt y + z * PyFloat.sqrt s2 ∧ o = w * w) ∨
  (sstype = 2 ∧ o = y * PyFloat.exp (z * PyFloat.sqrt s2))

theorem obsElem_observation {sst : ℤ} (h : sst = 0 ∨ sst = 1 ∨ sst = 2) (y z s2 : F) :
    Observation sst y z s2 (obsElem sst y z s2) := by
  rcases h with rfl | rfl | rfl
  · exact .inl ⟨rfl, rfl⟩
  · exact .inr (.inl ⟨rfl, _, rfl, rfl⟩)
  · exact .inr (.inr ⟨rfl, rfl⟩)

theorem observationSampleRow_ofFn {sst : ℤ} (h : sst = 0 ∨ sst = 1 ∨ sst = 2) (z : ℕ → F) {val : S2Val F} {v : F}
    (hv : val = .num v ∨ val = .row [v]) {r : ℕ} (y : Fin r → F) :
    observationSampleRow sst z val (List.ofFn y) = .ok (List.ofFn fun i => obsElem sst (y i) (z i) v) := by
  have hm : (List.ofFn y).mapIdx (fun i a => obsElem sst a (z i) v) = List.ofFn fun i => obsElem sst (y i) (z i) v := by
    refine List.ext_getElem (by simp) fun i h1 h2 => ?_
    simp
  unfold observationSampleRow
  rw [if_neg (by omega)]
  rcases hv with rfl | rfl
  · dsimp only; rw [hm]
  · dsimp only; rw [hm]

theorem observationSampleOut_single {sst : ℤ} (h : sst = 0 ∨ sst = 1 ∨ sst = 2) (z : ℕ → F) {val : S2Val F} {v : F}
    (hv : val = .num v ∨ val = .row [v]) {r : ℕ} {y : Fin r → F} {out : ModelOut F} (hy : out.flat = List.ofFn y) :
    observationSampleOut sst z val out = .ok (List.ofFn fun i => obsElem sst (y i) (z i) v) := by
  rw [← observationSampleRow_ofFn h z hv y, ← hy]
  unfold observationSampleOut
  cases out with
  | vec l => rfl
  | mat r c Y => rcases hv with rfl | rfl <;> rfl

end variance

section output
variable {F R D : Type} [PyFloat F] {N p : ℕ}

theorem returned_several {F : Type} {N c : ℕ} {st : PropState F N} {a b : Fin c → List (List F)} (h1 : st.multiple = true)
    (h2 : st.cis = some (List.ofFn a)) (h3 : st.pis = some (List.ofFn b)) (noS2 : Bool) :
    intervalsReturned noS2 st = .ok (List.ofFn fun jj => (a jj, if noS2 then none else some (b jj))) := by
  unfold intervalsReturned
  rw [if_neg (by rw [h1]; decide), h2, h3]
  simp only [orRaise, ok_bind, List.length_ofFn]
  rw [mapM_ok_iff]
  refine ⟨by simp, fun jj i hjj => ?_⟩
  obtain ⟨hj, rfl⟩ : jj < c ∧ jj = i := by
    obtain ⟨h1, h2⟩ := List.getElem?_eq_some_iff.1 hjj
    exact ⟨by simpa using h1, by simpa using h2⟩
  refine ⟨_, ?_, by rw [List.getElem?_ofFn, dif_pos hj]⟩
  have e1 : ∀ f : Fin c → List (List F), pyGet (List.ofFn f) jj = .ok (f ⟨jj, hj⟩) := fun f => by
    rw [pyGet_ok]; simp [hj]
  rw [e1, e1]
  cases noS2 <;> rfl

/-- the arrays `calculate_intervals` returns -/
theorem output_values (hone : ∀ x : F, lit 1 * x = x ∧ x * lit 1 = x) {parind : Fin p → Fin N}
    (hinj : Function.Injective parind) {chain : List (Vec F p)} {theta : Vec F N} (rest : R) {data : D}
    {model : Vec F N → D → Except PyErr (ModelOut F)} {iis : List ℤ} (hn0 : iis ≠ []) (hn : iis.length ≤ chain.length)
    {r c : ℕ} (hc : 1 ≤ c) {Y : ℕ → Fin r → Fin c → F}
    (hmod : ∀ kk row, kk < iis.length → chain[kk]? = some row → ∀ w, AtRow parind theta w row →
      ∃ z, model w data = .ok z ∧ OutputIs z (Y kk))
    {s2 : F ⊕ S2Chain F} {V : ℕ → ℕ → F}
    (hs2 : s2 = .inr .none ∨ ∀ kk < iis.length, ∀ jj < c, VarianceOf s2 chain.length c kk jj (V kk jj))
    {sst : ℤ} (hsst : sst = 0 ∨ sst = 1 ∨ sst = 2) (noise : ℕ → ℕ → ℕ → F) {noS2 : Bool}
    (hno : noS2 = true ↔ s2 = .inr .none) :
    ∃ res st, calculateIntervals chain ⟨parind, theta, rest⟩ data model s2 (propObs sst noise) iis = .ok (res, st) ∧
      intervalsReturned noS2 st = .ok (List.ofFn fun jj : Fin c =>
        ((List.ofFn fun kk : Fin iis.length => List.ofFn fun i => Y kk i jj),
          if noS2 then none else some (List.ofFn fun kk : Fin iis.length =>
            List.ofFn fun i => obsElem sst (Y kk i jj) (noise kk jj i) (V kk jj)))) := by
  have hlen : 0 < iis.length := List.length_pos_of_ne_nil hn0
  obtain ⟨s, hs, hused⟩ : ∃ s, checkS2chain s2 chain.length = .ok s ∧ (noS2 = true ∧ s = .none ∨ noS2 = false ∧ s ≠ .none ∧
      ∀ kk < iis.length, ∀ jj < c, ∃ val, s2At s kk (if c = 1 then none else some c) jj = .ok val ∧
        (val = .num (V kk jj) ∨ val = .row [V kk jj])) := by
    rcases hs2 with rfl | h
    · exact ⟨.none, rfl, .inl ⟨hno.2 rfl, rfl⟩⟩
    · obtain ⟨s, h1, h2, h3⟩ := VarianceOf.used hone hc hn hlen h
      refine ⟨s, h1, .inr ⟨?_, h2, h3⟩⟩
      rw [← Bool.not_eq_true, hno]
      rintro rfl
      exact h 0 hlen 0 (by omega)
  have hrow : ∀ i < iis.length, ∃ row, chain[i]? = some row := fun i hi =>
    ⟨_, List.getElem?_eq_getElem (by omega)⟩
  have hcalc : ∀ st, propLoop parind chain data model s (propObs sst noise) 0 iis { q := theta } = .ok st →
      calculateIntervals chain ⟨parind, theta, rest⟩ data model s2 (propObs sst noise) iis =
        .ok (⟨parind, st.q, rest⟩, st) := by
    intro st h
    unfold calculateIntervals
    rw [hs, ok_bind]
    dsimp only
    rw [h]
    rfl
  by_cases hc1 : c = 1
  · subst hc1
    obtain ⟨st, h1, h2, h3, h4⟩ := propLoop_one hinj (chain := chain) (data := data) (model := model) (s2 := s)
      (obs := propObs sst noise) (q0 := theta) (y := fun k => List.ofFn fun i => Y k i 0)
      (o := fun k => List.ofFn fun i => obsElem sst (Y k i 0) (noise k 0 i) (V k 0)) (iis := iis) (kk := 0)
      (st := { q := theta }) (fun _ _ => rfl) rfl
      (fun i hi => by
        rw [Nat.zero_add]
        obtain ⟨row, hr⟩ := hrow i hi
        refine ⟨row, hr, fun w hw => ?_⟩
        obtain ⟨z, hz, h | h⟩ := hmod i row hi hr w hw
        · obtain ⟨_, h1, h2⟩ := h
          refine ⟨z, hz, h1, h2, hused.imp (fun h => h.2) fun h => ?_⟩
          obtain ⟨val, h3, h4⟩ := h.2.2 i hi 0 (by omega)
          exact ⟨val, h3, observationSampleOut_single hsst _ h4 h2⟩
        · omega)
    refine ⟨_, st, hcalc st h1, ?_⟩
    unfold intervalsReturned
    rw [if_pos h2, h3]
    simp only [List.nil_append, Nat.zero_add, List.ofFn_succ, List.ofFn_zero]
    rcases hused with ⟨h, -⟩ | ⟨h, h', -⟩
    · rw [h]; simp
    · rw [h, h4 h']; simp
  · have hc2 : 2 ≤ c := by omega
    have hr2 : 2 ≤ r := by
      obtain ⟨row, hr⟩ := hrow 0 hlen
      obtain ⟨z, hz, h | h⟩ := hmod 0 row hlen hr _ (setParams_atRow hinj (q := theta) (fun _ _ => rfl) row)
      · exact absurd h.1 hc1
      · exact h.1
    obtain ⟨st, h1, h2, h3, b', h4, h5⟩ := propLoop_several hinj (chain := chain) (data := data) (model := model) (s2 := s)
      (obs := propObs sst noise) (q0 := theta) hr2 hc2 (Y := Y)
      (o := fun k jj => List.ofFn fun i => obsElem sst (Y k i jj) (noise k jj i) (V k jj)) (iis := iis) (kk := 0)
      (st := { q := theta }) (a := fun _ => []) (b := fun _ => []) (fun _ _ => rfl) (.inl ⟨rfl, rfl, rfl⟩)
      (fun i hi => by
        rw [Nat.zero_add]
        obtain ⟨row, hr⟩ := hrow i hi
        refine ⟨row, hr, fun w hw => ?_⟩
        obtain ⟨z, hz, h | h⟩ := hmod i row hi hr w hw
        · exact absurd h.1 hc1
        · rw [hz, h.2.2])
      (hused.imp (fun h => h.2) fun h i hi jj => by
        rw [Nat.zero_add]
        obtain ⟨val, h1, h2⟩ := h.2.2 i hi jj jj.2
        rw [if_neg hc1] at h1
        exact ⟨val, h1, observationSampleRow_ofFn hsst _ h2 _⟩) (by omega)
    refine ⟨_, st, hcalc st h1, ?_⟩
    rw [returned_several h2 h3 h4]
    congr 2
    funext jj
    rcases hused with ⟨h, -⟩ | ⟨h, h', -⟩
    · rw [h]; simp
    · rw [h, h5 h']; simp

/-- **C128.** The model returns an array of `r` points and `c` quantities at every row used, and the error variances are
not given or fit (`VarianceOf`).  Then `calculate_intervals` returns a pair of arrays for each of the `c` quantities.
Row `kk` of `credible` is the response for this quantity at row `kk` of the chain; row `kk` of `prediction` holds an
observation for each point: the response with an error of the variance of this row and quantity, with its own normal
draw.  Without variances there is no prediction. -/
theorem C128_output (hone : ∀ x : F, lit 1 * x = x ∧ x * lit 1 = x) {parind : Fin p → Fin N}
    (hinj : Function.Injective parind) {chain : List (Vec F p)} {theta : Vec F N} (rest : R) {data : D}
    {model : Vec F N → D → Except PyErr (ModelOut F)} {iis : List ℤ} (hn0 : iis ≠ []) (hn : iis.length ≤ chain.length)
    {r c : ℕ} (hc : 1 ≤ c) {Y : ℕ → Fin r → Fin c → F}
    (hmod : ∀ kk row, kk < iis.length → chain[kk]? = some row → ∀ w, AtRow parind theta w row →
      ∃ z, model w data = .ok z ∧ OutputIs z (Y kk))
    {s2 : F ⊕ S2Chain F} {V : ℕ → ℕ → F}
    (hs2 : s2 = .inr .none ∨ ∀ kk < iis.length, ∀ jj < c, VarianceOf s2 chain.length c kk jj (V kk jj))
    {sst : ℤ} (hsst : sst = 0 ∨ sst = 1 ∨ sst = 2) (noise : ℕ → ℕ → ℕ → F) {noS2 : Bool}
    (hno : noS2 = true ↔ s2 = .inr .none) :
    ∃ res st cols, calculateIntervals chain ⟨parind, theta, rest⟩ data model s2 (propObs sst noise) iis =
        .ok (res, st) ∧
      intervalsReturned noS2 st = .ok cols ∧ cols.length = c ∧
      ∀ jj : Fin c, ∃ credible prediction, cols[jj.val]? = some (credible, prediction) ∧
        credible = (List.ofFn fun kk : Fin iis.length => List.ofFn fun i => Y kk i jj) ∧
        (s2 = .inr .none → prediction = none) ∧
        (s2 ≠ .inr .none → ∃ P, prediction = some P ∧ P.length = iis.length ∧ ∀ (kk : ℕ) (o : List F), P[kk]? = some o →
          o.length = r ∧ ∀ (i : Fin r) x, o[i.val]? = some x → Observation sst (Y kk i jj) (noise kk jj i) (V kk jj) x) := by
  obtain ⟨res, st, h1, h2⟩ := output_values hone hinj rest hn0 hn hc hmod hs2 hsst noise hno
  refine ⟨res, st, _, h1, h2, by simp, fun jj => ⟨_, _, by rw [List.getElem?_ofFn, dif_pos jj.2], rfl, fun h => ?_,
    fun h => ?_⟩⟩
  · rw [if_pos (hno.2 h)]
  · rw [if_neg (fun h' => h (hno.1 h'))]
    refine ⟨_, rfl, by simp, fun kk o ho => ?_⟩
    rw [List.getElem?_ofFn] at ho
    split at ho
    · cases ho
      refine ⟨by simp, fun i x hx => ?_⟩
      rw [List.getElem?_ofFn, dif_pos i.2] at hx
      cases hx
      exact obsElem_observation hsst _ _ _
    · cases ho

/-- C128: three rows, two quantities with a variance each (4 and 9), two rows used -/
example : ∃ res st cols, calculateIntervals (F := ℚ) [![1], ![2], ![5]] ⟨(![1] : Fin 1 → Fin 2), ![7, 0], ()⟩ ()
      (fun w _ => .ok (.mat 2 2 fun i j => if j = 0 then w 1 + i.val else w 0 * w 1)) (.inr (.one [4, 9]))
      (propObs 0 fun kk jj i => (if kk = 0 then 1 else 10) + jj * 100 + i * 1000) [2, 0] = .ok (res, st) ∧
    intervalsReturned false st = .ok cols ∧ cols.length = 2 ∧
    ∃ P, cols[1]? = some ([[7, 7], [14, 14]], some P) ∧ P.length = 2 ∧
      ∀ kk o, P[kk]? = some o → ∀ x, o[1]? = some x →
        Observation (F := ℚ) 0 (if kk = 0 then 7 else 14) ((if kk = 0 then 1 else 10) + 1 * 100 + 1 * 1000) 9 x := by
  obtain ⟨res, st, cols, h1, h2, h3, h4⟩ := C128_output (F := ℚ) (fun x => by constructor <;> simp [lit, PyFloat.lit])
    (parind := (![1] : Fin 1 → Fin 2)) (fun a b _ => Subsingleton.elim a b) (chain := [![1], ![2], ![5]])
    (theta := ![7, 0]) () (data := ())
    (model := fun w _ => .ok (.mat 2 2 fun i j => if j = 0 then w 1 + i.val else w 0 * w 1)) (iis := [2, 0])
    (by simp) (by simp) (r := 2) (c := 2) (by omega)
    (Y := fun kk i j => if j = 0 then (if kk = 0 then 1 else 2) + i.val else 7 * (if kk = 0 then 1 else 2))
    (by
      intro kk row hkk hrow w hw
      have hw1 : w 1 = row 0 := hw.1 0
      have hw0 : w 0 = 7 := hw.2 0 (fun j => by fin_cases j; decide)
      refine ⟨_, rfl, .inr ⟨le_rfl, le_rfl, ?_⟩⟩
      rw [hw0, hw1]
      match kk, hkk, hrow with
      | 0, _, hrow => cases hrow; rfl
      | 1, _, hrow => cases hrow; rfl)
    (s2 := .inr (.one [4, 9])) (V := fun _ jj => if jj = 0 then 4 else 9)
    (.inr (by
      intro kk _ jj hjj
      refine .inr ⟨by simp, .inl ⟨rfl, ?_⟩⟩
      match jj, hjj with
      | 0, _ => rfl
      | 1, _ => rfl))
    (sst := 0) (.inl rfl) (fun kk jj i => (if kk = 0 then 1 else 10) + jj * 100 + i * 1000) (noS2 := false) (by simp)
  refine ⟨res, st, cols, h1, h2, h3, ?_⟩
  obtain ⟨cr, pr, e1, e2, -, e3⟩ := h4 1
  obtain ⟨P, rfl, hP, hO⟩ := e3 (by simp)
  refine ⟨P, by rw [show ((1 : Fin 2).val) = 1 from rfl] at e1; rw [e1, e2]; exact congrArg (fun l => some (l, some P)) (by decide +kernel), hP, fun kk o ho x hx => ?_⟩
  have := (hO kk o ho).2 1 x hx
  simp at this
  convert this using 1 <;> split_ifs <;> norm_num

/-! ### Variances that do not fit -/

theorem obsRow_refused {sst : ℤ} (h : sst = 0 ∨ sst = 1 ∨ sst = 2) (z : ℕ → F) {l y : List F} (h1 : l.length ≠ 1)
    (h2 : l.length ≠ y.length) (h3 : y.length ≠ 1) : observationSampleRow sst z (.row l) y = .error .valueError := by
  unfold observationSampleRow
  rw [if_neg (by omega)]
  match l, h1, h2 with
  | [], _, h2 =>
    dsimp only
    rw [if_neg h2]
    match y, h3 with
    | [], _ => rfl
    | _ :: _ :: _, _ => rfl
  | _ :: _ :: _, _, h2 =>
    dsimp only
    rw [if_neg h2]
    match y, h3 with
    | [], _ => rfl
    | _ :: _ :: _, _ => rfl

theorem obsRow_points {sst : ℤ} (h : sst = 0 ∨ sst = 1 ∨ sst = 2) (z : ℕ → F) {k : ℕ} (hk : k ≠ 1) (l y : Fin k → F) :
    observationSampleRow sst z (.row (List.ofFn l)) (List.ofFn y) =
      .ok (List.ofFn fun i => obsElem sst (y i) (z i) (l i)) := by
  have hm : (List.zip (List.ofFn y) (List.ofFn l)).mapIdx (fun i a => obsElem sst a.1 (z i) a.2) =
      List.ofFn fun i => obsElem sst (y i) (z i) (l i) := by
    refine List.ext_getElem (by simp) fun i h1 h2 => ?_
    simp
  unfold observationSampleRow
  rw [if_neg (by omega)]
  match k, hk, l, y, hm with
  | 0, _, l, y, hm => simp
  | k + 2, _, l, y, hm =>
    have hl2 : List.ofFn l = l 0 :: l 1 :: List.ofFn fun i => l i.succ.succ := by
      rw [List.ofFn_succ, List.ofFn_succ]; rfl
    rw [hl2] at hm ⊢
    dsimp only
    rw [if_pos (by simp), hm]

/-- **C130 (part).** A chain of error variances with several columns, neither one for each of the `c` quantities nor one
for each of the `r` points (of which there are several), is refused: `calculate_intervals` raises a `ValueError`.
Missing: a chain with as many columns as points, see `C130_refuted`. -/
theorem C130_refused_partial {parind : Fin p → Fin N} (hinj : Function.Injective parind) {chain : List (Vec F p)}
    {theta : Vec F N} (rest : R) {data : D} {model : Vec F N → D → Except PyErr (ModelOut F)} {isa : ℤ} {iis : List ℤ}
    {row : Vec F p} (hrow : chain[0]? = some row) {r c : ℕ} {Y : Fin r → Fin c → F}
    (hmod : ∀ w, AtRow parind theta w row → model w data = .ok (.mat r c Y)) (hr : 2 ≤ r) (hc : 2 ≤ c) {k : ℕ}
    {rows : List (Fin k → F)} (hl : rows.length = chain.length) (hk1 : k ≠ 1) (hkc : k ≠ c) (hkr : k ≠ r)
    {sst : ℤ} (hsst : sst = 0 ∨ sst = 1 ∨ sst = 2) (noise : ℕ → ℕ → ℕ → F) :
    calculateIntervals chain ⟨parind, theta, rest⟩ data model (.inr (.two k rows)) (propObs sst noise) (isa :: iis) =
      .error .valueError := by
  have hat := setParams_atRow hinj (q := theta) (fun _ _ => rfl) row
  have hmul : (ModelOut.mat r c Y).isMultiple = true := by
    simp only [ModelOut.isMultiple, ne_eq, Bool.and_eq_true, decide_eq_true_eq]
    constructor <;> intro h <;> nlinarith
  have hlen : 0 < rows.length := by
    rw [hl]; exact (List.getElem?_eq_some_iff.1 hrow).1
  have hg : pyGet rows 0 = .ok rows[0] := pyGet_ok.2 (List.getElem?_eq_getElem hlen)
  have hs2 : s2At (.two k rows) 0 (some c) 0 = .ok (.row (List.ofFn rows[0])) := by
    unfold s2At
    dsimp only
    rw [if_neg (by simpa using fun h => hkc h.symm), hg]
    rfl
  have hobs : propObs sst noise 0 0 (.row (List.ofFn rows[0])) (.vec (List.ofFn fun i => Y i ⟨0, by omega⟩)) =
      .error .valueError := obsRow_refused hsst _ (by simpa using hk1) (by simpa using hkr) (by simp; omega)
  have hck : checkS2chain (.inr (.two k rows)) chain.length = .ok (.two k rows) := if_neg (by simpa using hl)
  unfold calculateIntervals
  rw [hck, ok_bind]
  dsimp only
  unfold propLoop propStep
  have hrow' : pyGet chain 0 = .ok row := pyGet_ok.2 hrow
  rw [hrow']
  simp only [ok_bind]
  rw [hmod _ hat]
  have hn : (ModelOut.mat r c Y).ncol = .ok c := rfl
  simp only [ok_bind, hmul, Bool.or_true, Bool.true_eq_false, if_false, hn, if_true]
  obtain ⟨c', rfl⟩ : ∃ c', c = c' + 1 := ⟨c - 1, by omega⟩
  rw [List.range_succ_eq_map]
  unfold propColumns
  have hcol : (ModelOut.mat r (c' + 1) Y).col 0 = .ok (List.ofFn fun i => Y i ⟨0, by omega⟩) := by
    simp [ModelOut.col]
  have hap : appendAt (List.replicate (c' + 1) []) 0 (List.ofFn fun i => Y i ⟨0, by omega⟩) =
      .ok (List.set (List.replicate (c' + 1) []) 0 ([] ++ [List.ofFn fun i => Y i ⟨0, by omega⟩])) := by
    unfold appendAt pyGet pySet
    simp [Except.bind]
  rw [hcol, ok_bind]
  dsimp only
  rw [hap, ok_bind, hs2]
  simp only [Except.bind, hobs]
  rfl

/-- **C130 fails** for a chain with as many columns as there are points: every column is taken as the variance of one
point, for all quantities. -/
theorem C130_refuted {parind : Fin p → Fin N} (hinj : Function.Injective parind) {chain : List (Vec F p)}
    {theta : Vec F N} (rest : R) {data : D} {model : Vec F N → D → Except PyErr (ModelOut F)} {iis : List ℤ}
    (hn0 : iis ≠ []) (hn : iis.length ≤ chain.length) {r c : ℕ} (hr : 2 ≤ r) (hc : 2 ≤ c) (hrc : r ≠ c)
    {Y : ℕ → Fin r → Fin c → F}
    (hmod : ∀ kk row, kk < iis.length → chain[kk]? = some row → ∀ w, AtRow parind theta w row →
      model w data = .ok (.mat r c (Y kk)))
    {rows : List (Fin r → F)} (hl : rows.length = chain.length)
    {sst : ℤ} (hsst : sst = 0 ∨ sst = 1 ∨ sst = 2) (noise : ℕ → ℕ → ℕ → F) :
    ∃ res st cols, calculateIntervals chain ⟨parind, theta, rest⟩ data model (.inr (.two r rows)) (propObs sst noise) iis =
        .ok (res, st) ∧
      intervalsReturned false st = .ok cols ∧ cols.length = c ∧
      ∀ jj : Fin c, ∃ credible P, cols[jj.val]? = some (credible, some P) ∧ P.length = iis.length ∧
        ∀ (kk : ℕ) (o : List F) row, P[kk]? = some o → rows[kk]? = some row → o.length = r ∧
          ∀ (i : Fin r) x, o[i.val]? = some x → Observation sst (Y kk i jj) (noise kk jj i) (row i) x := by
  have hlen : 0 < iis.length := List.length_pos_of_ne_nil hn0
  obtain ⟨W, hW⟩ : ∃ W : ℕ → Fin r → F, ∀ kk < iis.length, rows[kk]? = some (W kk) := by
    have : ∀ kk, ∃ w : Fin r → F, kk < iis.length → rows[kk]? = some w := fun kk => by
      by_cases h : kk < iis.length
      · exact ⟨rows[kk]'(by omega), fun _ => List.getElem?_eq_getElem (by omega)⟩
      · exact ⟨fun _ => lit 0, fun h' => absurd h' h⟩
    choose W hW using this
    exact ⟨W, hW⟩
  obtain ⟨st, h1, h2, h3, b', h4, h5⟩ := propLoop_several hinj (chain := chain) (data := data) (model := model)
    (s2 := .two r rows) (obs := propObs sst noise) (q0 := theta) hr hc (Y := Y)
    (o := fun k jj => List.ofFn fun i => obsElem sst (Y k i jj) (noise k jj i) (W k i)) (iis := iis) (kk := 0)
    (st := { q := theta }) (a := fun _ => []) (b := fun _ => []) (fun _ _ => rfl) (.inl ⟨rfl, rfl, rfl⟩)
    (fun i hi => by
      rw [Nat.zero_add]
      obtain ⟨row, hrow⟩ : ∃ row, chain[i]? = some row := ⟨_, List.getElem?_eq_getElem (by omega)⟩
      exact ⟨row, hrow, fun w hw => hmod i row hi hrow w hw⟩)
    (.inr fun i hi jj => by
      rw [Nat.zero_add]
      refine ⟨.row (List.ofFn (W i)), ?_, obsRow_points hsst _ (by omega) _ _⟩
      unfold s2At
      dsimp only
      rw [if_neg (by simpa using fun h => hrc h.symm), pyGet_ok.2 (hW i hi)]
      rfl) (by omega)
  have hck : checkS2chain (.inr (.two r rows)) chain.length = .ok (.two r rows) := if_neg (by simpa using hl)
  refine ⟨⟨parind, st.q, rest⟩, st, _, ?_, returned_several h2 h3 h4 false, by simp, fun jj =>
    ⟨_, _, by rw [List.getElem?_ofFn, dif_pos jj.2]; rfl, ?_, fun kk o row ho hrow => ?_⟩⟩
  · unfold calculateIntervals
    rw [hck, ok_bind]
    dsimp only
    rw [h1]
    rfl
  · rw [h5 (by simp)]; simp
  · rw [h5 (by simp)] at ho
    simp only [List.nil_append, Nat.zero_add, List.getElem?_ofFn] at ho
    split at ho
    · rename_i hkk
      cases ho
      rw [hW kk hkk] at hrow
      cases hrow
      refine ⟨by simp, fun i x hx => ?_⟩
      rw [List.getElem?_ofFn, dif_pos i.2] at hx
      cases hx
      exact obsElem_observation hsst _ _ _
    · cases ho

/-- **C130 (part), a single quantity.** For a model with a single quantity of several points, returned as a vector or as a
row, a chain of error variances with several columns is refused unless there is one for each point.
Missing: one column for each point, see `C130_points_refuted`; a single quantity returned as a column, see
`C130_column_refuted`. -/
theorem C130_single_partial {parind : Fin p → Fin N} (hinj : Function.Injective parind) {chain : List (Vec F p)}
    {theta : Vec F N} (rest : R) {data : D} {model : Vec F N → D → Except PyErr (ModelOut F)} {isa : ℤ} {iis : List ℤ}
    {row : Vec F p} (hrow : chain[0]? = some row) {r : ℕ} {z : ModelOut F}
    (hz : (∃ y : Fin r → F, z = .vec (List.ofFn y)) ∨ ∃ Y : Fin 1 → Fin r → F, z = .mat 1 r Y)
    (hmod : ∀ w, AtRow parind theta w row → model w data = .ok z) (hr : 2 ≤ r) {k : ℕ}
    {rows : List (Fin k → F)} (hl : rows.length = chain.length) (hk1 : k ≠ 1) (hkr : k ≠ r)
    {sst : ℤ} (hsst : sst = 0 ∨ sst = 1 ∨ sst = 2) (noise : ℕ → ℕ → ℕ → F) :
    calculateIntervals chain ⟨parind, theta, rest⟩ data model (.inr (.two k rows)) (propObs sst noise) (isa :: iis) =
      .error .valueError := by
  have hat := setParams_atRow hinj (q := theta) (fun _ _ => rfl) row
  have hmul : z.isMultiple = false := by
    rcases hz with ⟨y, rfl⟩ | ⟨Y, rfl⟩ <;> simp [ModelOut.isMultiple]
  have hlen : 0 < rows.length := by
    rw [hl]; exact (List.getElem?_eq_some_iff.1 hrow).1
  have hg : pyGet rows 0 = .ok rows[0] := pyGet_ok.2 (List.getElem?_eq_getElem hlen)
  have hs2 : s2At (.two k rows) 0 none 0 = .ok (.row (List.ofFn rows[0])) := by
    unfold s2At
    dsimp only
    rw [if_neg (by simp), hg]
    rfl
  have hobs : propObs sst noise 0 0 (.row (List.ofFn rows[0])) z = .error .valueError := by
    rcases hz with ⟨y, rfl⟩ | ⟨Y, rfl⟩
    · exact obsRow_refused hsst _ (by simpa using hk1) (by simpa using hkr) (by simp; omega)
    · generalize hL : List.ofFn rows[0] = l
      have hll : l.length = k := by rw [← hL]; simp
      unfold propObs observationSampleOut
      match l, hll with
      | [], hll =>
        dsimp only
        rw [if_neg (by omega), dif_neg (by omega), dif_neg (by omega)]
      | [_], hll => exact absurd hll.symm hk1
      | _ :: _ :: _, hll =>
        dsimp only
        rw [if_neg (by omega), dif_neg (by omega), dif_neg (by omega)]
  have hck : checkS2chain (.inr (.two k rows)) chain.length = .ok (.two k rows) := if_neg (by simpa using hl)
  unfold calculateIntervals
  rw [hck, ok_bind]
  dsimp only
  unfold propLoop propStep
  have hrow' : pyGet chain 0 = .ok row := pyGet_ok.2 hrow
  rw [hrow']
  simp only [ok_bind]
  rw [hmod _ hat]
  simp only [ok_bind, hmul, Bool.or_self, if_true]
  rw [hs2]
  simp only [Except.bind, hobs]
  rfl

theorem outRow_column {sst : ℤ} (h : sst = 0 ∨ sst = 1 ∨ sst = 2) (z : ℕ → F) {r k : ℕ} (Y : Fin r → Fin 1 → F)
    (l : Fin k → F) (hk : k ≠ 1) :
    observationSampleOut sst z (.row (List.ofFn l)) (.mat r 1 Y) =
      .ok (List.ofFn fun i : Fin r => List.ofFn fun j : Fin k => obsElem sst (Y i 0) (z i) (l j)).flatten := by
  have hm : ∀ i : Fin r, (List.ofFn l).map (fun s => obsElem sst (Y i 0) (z i) s) =
      List.ofFn fun j : Fin k => obsElem sst (Y i 0) (z i) (l j) := fun i => by
    rw [List.map_ofFn]; rfl
  have hll : (List.ofFn l).length = k := by simp
  have key : observationSampleOut sst z (.row (List.ofFn l)) (.mat r 1 Y) =
      .ok (List.ofFn fun i : Fin r => (List.ofFn l).map fun s => obsElem sst (Y i 0) (z i) s).flatten := by
    generalize List.ofFn l = L at hll
    unfold observationSampleOut
    match L, hll with
    | [], hll =>
      dsimp only
      rw [if_neg (by omega), dif_pos rfl]
      rfl
    | [_], hll => exact absurd hll.symm hk
    | _ :: _ :: _, hll =>
      dsimp only
      rw [if_neg (by omega), dif_pos rfl]
      rfl
  rw [key]
  simp only [hm]

/-- a vector with a single point, as the column with a single point -/
theorem outRow_point {sst : ℤ} (h : sst = 0 ∨ sst = 1 ∨ sst = 2) (z : ℕ → F) {k : ℕ} (Y : Fin 1 → Fin 1 → F)
    (l : Fin k → F) (hk : k ≠ 1) :
    observationSampleOut sst z (.row (List.ofFn l)) (.vec (List.ofFn fun i => Y i 0)) =
      observationSampleOut sst z (.row (List.ofFn l)) (.mat 1 1 Y) := by
  rw [outRow_column h z Y l hk]
  have hll : (List.ofFn l).length = k := by simp
  have hm : (List.ofFn fun i : Fin 1 => List.ofFn fun j : Fin k => obsElem sst (Y i 0) (z i) (l j)).flatten =
      (List.ofFn l).map fun s => obsElem sst (Y 0 0) (z 0) s := by
    rw [List.map_ofFn]; simp; rfl
  rw [hm]
  generalize List.ofFn l = L at hll
  change observationSampleRow sst z (.row L) (List.ofFn fun i => Y i 0) = _
  unfold observationSampleRow
  rw [if_neg (by omega)]
  match L, hll with
  | [], hll => simp
  | [_], hll => exact absurd hll.symm hk
  | _ :: _ :: _, hll => simp

/-- **C130 fails** for a single quantity returned as a column, or with a single point: several columns of error variances are not refused; each
point gets as many observations as there are columns, so the rows of `prediction` have `r k` entries where those of
`credible` have `r`. -/
theorem C130_column_refuted {parind : Fin p → Fin N} (hinj : Function.Injective parind) {chain : List (Vec F p)}
    {theta : Vec F N} (rest : R) {data : D} {model : Vec F N → D → Except PyErr (ModelOut F)} {iis : List ℤ}
    (hn : iis.length ≤ chain.length) {r k : ℕ} (hk : k ≠ 1) {Y : ℕ → Fin r → Fin 1 → F}
    (hmod : ∀ kk row, kk < iis.length → chain[kk]? = some row → ∀ w, AtRow parind theta w row →
      ∃ z, model w data = .ok z ∧ (z = .mat r 1 (Y kk) ∨ r = 1 ∧ z = .vec (List.ofFn fun i => Y kk i 0)))
    {rows : List (Fin k → F)} (hl : rows.length = chain.length)
    {sst : ℤ} (hsst : sst = 0 ∨ sst = 1 ∨ sst = 2) (noise : ℕ → ℕ → ℕ → F) :
    ∃ res st credible P, calculateIntervals chain ⟨parind, theta, rest⟩ data model (.inr (.two k rows))
        (propObs sst noise) iis = .ok (res, st) ∧
      intervalsReturned false st = .ok [(credible, some P)] ∧ credible.length = iis.length ∧ P.length = iis.length ∧
      (∀ o ∈ credible, o.length = r) ∧
      ∀ (kk : ℕ) (o : List F) row, P[kk]? = some o → rows[kk]? = some row → o.length = r * k ∧
        ∀ (i : Fin r) (j : Fin k) x, o[i.val * k + j.val]? = some x →
          Observation sst (Y kk i 0) (noise kk 0 i) (row j) x := by
  obtain ⟨W, hW⟩ : ∃ W : ℕ → Fin k → F, ∀ kk < iis.length, rows[kk]? = some (W kk) := by
    have : ∀ kk, ∃ w : Fin k → F, kk < iis.length → rows[kk]? = some w := fun kk => by
      by_cases h : kk < iis.length
      · exact ⟨rows[kk]'(by omega), fun _ => List.getElem?_eq_getElem (by omega)⟩
      · exact ⟨fun _ => lit 0, fun h' => absurd h' h⟩
    choose W hW using this
    exact ⟨W, hW⟩
  obtain ⟨st, h1, h2, h3, h4⟩ := propLoop_one hinj (chain := chain) (data := data) (model := model)
    (s2 := .two k rows) (obs := propObs sst noise) (q0 := theta) (y := fun n => (ModelOut.mat r 1 (Y n)).flat)
    (o := fun n => (List.ofFn fun i : Fin r => List.ofFn fun j : Fin k =>
      obsElem sst (Y n i 0) (noise n 0 i) (W n j)).flatten) (iis := iis) (kk := 0)
    (st := { q := theta }) (fun _ _ => rfl) rfl
    (fun i hi => by
      rw [Nat.zero_add]
      obtain ⟨row, hrow⟩ : ∃ row, chain[i]? = some row := ⟨_, List.getElem?_eq_getElem (by omega)⟩
      have hs : s2At (.two k rows) i none 0 = .ok (.row (List.ofFn (W i))) := by
        unfold s2At
        dsimp only
        rw [if_neg (by simp), pyGet_ok.2 (hW i hi)]
        rfl
      refine ⟨row, hrow, fun w hw => ?_⟩
      obtain ⟨z, hz, h | ⟨hr, h⟩⟩ := hmod i row hi hrow w hw
      · exact ⟨z, hz, by simp [h, ModelOut.isMultiple], by rw [h],
          .inr ⟨_, hs, by rw [h]; exact outRow_column hsst _ _ _ hk⟩⟩
      · subst hr
        exact ⟨z, hz, by simp [h, ModelOut.isMultiple], by rw [h]; simp [ModelOut.flat],
          .inr ⟨_, hs, by rw [h]; exact (outRow_point hsst _ _ _ hk).trans (outRow_column hsst _ _ _ hk)⟩⟩)
  have hck : checkS2chain (.inr (.two k rows)) chain.length = .ok (.two k rows) := if_neg (by simpa using hl)
  refine ⟨⟨parind, st.q, rest⟩, st, st.ci, st.pi, ?_, ?_, ?_, ?_, ?_, fun kk o row ho hrow => ?_⟩
  · unfold calculateIntervals
    rw [hck, ok_bind]
    dsimp only
    rw [h1]
    rfl
  · unfold intervalsReturned
    rw [if_pos h2]
    rfl
  · rw [h3]; simp
  · rw [h4 (by simp)]; simp
  · intro o ho
    rw [h3] at ho
    simp only [List.nil_append, Nat.zero_add, List.mem_ofFn] at ho
    obtain ⟨i, rfl⟩ := ho
    simp [ModelOut.flat, List.length_flatten, List.sum_ofFn]
  · rw [h4 (by simp)] at ho
    simp only [List.nil_append, Nat.zero_add, List.getElem?_ofFn] at ho
    split at ho
    · rename_i hkk
      cases ho
      rw [hW kk hkk] at hrow
      cases hrow
      have hflat : (List.ofFn fun i : Fin r => List.ofFn fun j : Fin k =>
          obsElem sst (Y kk i 0) (noise kk 0 i) (W kk j)).flatten =
          List.ofFn fun n : Fin (r * k) => obsElem sst (Y kk n.divNat 0) (noise kk 0 n.divNat) (W kk n.modNat) := by
        rw [List.ofFn_mul]
        congr 2
        funext i
        congr 1
        funext j
        have hkp : 0 < k := j.pos
        have e1 : (⟨i.val * k + j.val, by nlinarith [i.2, j.2]⟩ : Fin (r * k)).divNat = i := by
          apply Fin.ext
          simp [Fin.divNat, Nat.add_div_of_dvd_right, hkp, Nat.div_eq_of_lt j.2]
        have e2 : (⟨i.val * k + j.val, by nlinarith [i.2, j.2]⟩ : Fin (r * k)).modNat = j := by
          apply Fin.ext
          simp [Fin.modNat, Nat.mod_eq_of_lt j.2]
        rw [e1, e2]
      refine ⟨by rw [hflat]; simp, fun i j x hx => ?_⟩
      have hkp : 0 < k := j.pos
      have hlt : i.val * k + j.val < r * k := by nlinarith [i.2, j.2]
      rw [hflat, List.getElem?_ofFn, dif_pos hlt] at hx
      cases hx
      have e1 : (⟨i.val * k + j.val, hlt⟩ : Fin (r * k)).divNat = i := by
        apply Fin.ext
        simp [Fin.divNat, Nat.add_div_of_dvd_right, hkp, Nat.div_eq_of_lt j.2]
      have e2 : (⟨i.val * k + j.val, hlt⟩ : Fin (r * k)).modNat = j := by
        apply Fin.ext
        simp [Fin.modNat, Nat.mod_eq_of_lt j.2]
      rw [e1, e2]
      exact obsElem_observation hsst _ _ _
    · cases ho

/-- C130: a chain of error variances with three columns for a model with two quantities of four points is refused -/
example : calculateIntervals (F := ℚ) [![1], ![2]] ⟨(![0] : Fin 1 → Fin 1), ![7], ()⟩ ()
    (fun w _ => .ok (.mat 4 2 fun _ _ => w 0)) (.inr (.two 3 [![1, 1, 1], ![2, 2, 2]])) (propObs 0 fun _ _ _ => 1) [0, 1] =
      .error .valueError :=
  C130_refused_partial (F := ℚ) (parind := (![0] : Fin 1 → Fin 1)) (fun a b _ => Subsingleton.elim a b)
    (chain := [![1], ![2]]) (theta := ![7]) () (data := ()) (model := fun w _ => .ok (.mat 4 2 fun _ _ => w 0))
    (isa := 0) (iis := [1]) (row := ![1]) (by simp) (r := 4) (c := 2) (Y := fun _ _ => 1)
    (fun w hw => by rw [show w 0 = 1 from hw.1 0]) (by omega) (by omega) (k := 3)
    (rows := [![1, 1, 1], ![2, 2, 2]]) (by simp) (by omega) (by omega) (by omega) (sst := 0) (.inl rfl) (fun _ _ _ => 1)

/-- C130 fails: with three points the columns are taken as the variances of the points -/
example : ∃ res st cols, calculateIntervals (F := ℚ) [![1], ![2]] ⟨(![0] : Fin 1 → Fin 1), ![7], ()⟩ ()
      (fun w _ => .ok (.mat 3 2 fun _ _ => w 0)) (.inr (.two 3 [![1, 4, 9], ![2, 2, 2]])) (propObs 0 fun _ _ _ => 1) [0, 1] =
        .ok (res, st) ∧ intervalsReturned false st = .ok cols ∧
    ∃ credible P, cols[1]? = some (credible, some P) ∧ ∀ o x, P[0]? = some o → o[2]? = some x →
      Observation (F := ℚ) 0 1 1 9 x := by
  obtain ⟨res, st, cols, h1, h2, -, h3⟩ := C130_refuted (F := ℚ) (parind := (![0] : Fin 1 → Fin 1))
    (fun a b _ => Subsingleton.elim a b) (chain := [![1], ![2]]) (theta := ![7]) () (data := ())
    (model := fun w _ => .ok (.mat 3 2 fun _ _ => w 0)) (iis := [0, 1]) (by simp) (by simp) (r := 3) (c := 2) (by omega)
    (by omega) (by omega) (Y := fun kk _ _ => if kk = 0 then 1 else 2) (by
      intro kk row hkk hrow w hw
      rw [show w 0 = row 0 from hw.1 0]
      match kk, hkk, hrow with
      | 0, _, hrow => cases hrow; rfl
      | 1, _, hrow => cases hrow; rfl) (rows := [![1, 4, 9], ![2, 2, 2]]) rfl (.inl rfl) (fun _ _ _ => 1)
  obtain ⟨cr, P, e1, -, e2⟩ := h3 1
  exact ⟨res, st, cols, h1, h2, cr, P, e1, fun o x ho hx => (e2 0 o _ ho rfl).2 2 x hx⟩

/-- **C130 fails** for a single quantity with as many columns of error variances as points: every column is taken as the
variance of one point. -/
theorem C130_points_refuted {parind : Fin p → Fin N} (hinj : Function.Injective parind) {chain : List (Vec F p)}
    {theta : Vec F N} (rest : R) {data : D} {model : Vec F N → D → Except PyErr (ModelOut F)} {iis : List ℤ}
    (hn : iis.length ≤ chain.length) {r : ℕ} (hr : 2 ≤ r) {Y : ℕ → Fin r → F}
    (hmod : ∀ kk row, kk < iis.length → chain[kk]? = some row → ∀ w, AtRow parind theta w row →
      model w data = .ok (.vec (List.ofFn (Y kk))))
    {rows : List (Fin r → F)} (hl : rows.length = chain.length)
    {sst : ℤ} (hsst : sst = 0 ∨ sst = 1 ∨ sst = 2) (noise : ℕ → ℕ → ℕ → F) :
    ∃ res st credible P, calculateIntervals chain ⟨parind, theta, rest⟩ data model (.inr (.two r rows))
        (propObs sst noise) iis = .ok (res, st) ∧
      intervalsReturned false st = .ok [(credible, some P)] ∧ P.length = iis.length ∧
      ∀ (kk : ℕ) (o : List F) row, P[kk]? = some o → rows[kk]? = some row → o.length = r ∧
        ∀ (i : Fin r) x, o[i.val]? = some x → Observation sst (Y kk i) (noise kk 0 i) (row i) x := by
  obtain ⟨W, hW⟩ : ∃ W : ℕ → Fin r → F, ∀ kk < iis.length, rows[kk]? = some (W kk) := by
    have : ∀ kk, ∃ w : Fin r → F, kk < iis.length → rows[kk]? = some w := fun kk => by
      by_cases h : kk < iis.length
      · exact ⟨rows[kk]'(by omega), fun _ => List.getElem?_eq_getElem (by omega)⟩
      · exact ⟨fun _ => lit 0, fun h' => absurd h' h⟩
    choose W hW using this
    exact ⟨W, hW⟩
  obtain ⟨st, h1, h2, -, h4⟩ := propLoop_one hinj (chain := chain) (data := data) (model := model)
    (s2 := .two r rows) (obs := propObs sst noise) (q0 := theta) (y := fun n => List.ofFn (Y n))
    (o := fun n => List.ofFn fun i => obsElem sst (Y n i) (noise n 0 i) (W n i)) (iis := iis) (kk := 0)
    (st := { q := theta }) (fun _ _ => rfl) rfl
    (fun i hi => by
      rw [Nat.zero_add]
      obtain ⟨row, hrow⟩ : ∃ row, chain[i]? = some row := ⟨_, List.getElem?_eq_getElem (by omega)⟩
      refine ⟨row, hrow, fun w hw => ⟨_, hmod i row hi hrow w hw, rfl, rfl,
        .inr ⟨.row (List.ofFn (W i)), ?_, obsRow_points hsst _ (by omega) _ _⟩⟩⟩
      unfold s2At
      dsimp only
      rw [if_neg (by simp), pyGet_ok.2 (hW i hi)]
      rfl)
  have hck : checkS2chain (.inr (.two r rows)) chain.length = .ok (.two r rows) := if_neg (by simpa using hl)
  refine ⟨⟨parind, st.q, rest⟩, st, st.ci, st.pi, ?_, ?_, ?_, fun kk o row ho hrow => ?_⟩
  · unfold calculateIntervals
    rw [hck, ok_bind]
    dsimp only
    rw [h1]
    rfl
  · unfold intervalsReturned
    rw [if_pos h2]
    rfl
  · rw [h4 (by simp)]; simp
  · rw [h4 (by simp)] at ho
    simp only [List.nil_append, Nat.zero_add, List.getElem?_ofFn] at ho
    split at ho
    · rename_i hkk
      cases ho
      rw [hW kk hkk] at hrow
      cases hrow
      refine ⟨by simp, fun i x hx => ?_⟩
      rw [List.getElem?_ofFn, dif_pos i.2] at hx
      cases hx
      exact obsElem_observation hsst _ _ _
    · cases ho

/-- C130: three columns of error variances for a single quantity of four points are refused -/
example : calculateIntervals (F := ℚ) [![1], ![2]] ⟨(![0] : Fin 1 → Fin 1), ![7], ()⟩ ()
    (fun w _ => .ok (.vec [w 0, w 0, w 0, w 0])) (.inr (.two 3 [![1, 1, 1], ![2, 2, 2]])) (propObs 0 fun _ _ _ => 1)
      [0, 1] = .error .valueError :=
  C130_single_partial (F := ℚ) (parind := (![0] : Fin 1 → Fin 1)) (fun a b _ => Subsingleton.elim a b)
    (chain := [![1], ![2]]) (theta := ![7]) () (data := ()) (model := fun w _ => .ok (.vec [w 0, w 0, w 0, w 0]))
    (isa := 0) (iis := [1]) (row := ![1]) (by simp) (r := 4) (z := .vec [1, 1, 1, 1]) (.inl ⟨fun _ => 1, rfl⟩)
    (fun w hw => by rw [show w 0 = 1 from hw.1 0]) (by omega) (k := 3)
    (rows := [![1, 1, 1], ![2, 2, 2]]) (by simp) (by omega) (by omega) (sst := 0) (.inl rfl) (fun _ _ _ => 1)

/-- C130 fails for a column: two points, three columns of error variances, six observations -/
example : ∃ res st credible P, calculateIntervals (F := ℚ) [![1], ![2]] ⟨(![0] : Fin 1 → Fin 1), ![7], ()⟩ ()
      (fun w _ => .ok (.mat 2 1 fun _ _ => w 0)) (.inr (.two 3 [![1, 4, 9], ![2, 2, 2]])) (propObs 0 fun _ _ _ => 1)
      [0, 1] = .ok (res, st) ∧ intervalsReturned false st = .ok [(credible, some P)] ∧
    (∀ o ∈ credible, o.length = 2) ∧ ∀ o, P[0]? = some o → o.length = 6 ∧ ∀ x, o[5]? = some x →
      Observation (F := ℚ) 0 1 1 9 x := by
  obtain ⟨res, st, cr, P, h1, h2, -, -, h3, h4⟩ := C130_column_refuted (F := ℚ) (parind := (![0] : Fin 1 → Fin 1))
    (fun a b _ => Subsingleton.elim a b) (chain := [![1], ![2]]) (theta := ![7]) () (data := ())
    (model := fun w _ => .ok (.mat 2 1 fun _ _ => w 0)) (iis := [0, 1]) (by simp) (r := 2) (k := 3) (by omega)
    (Y := fun kk _ _ => if kk = 0 then 1 else 2) (by
      intro kk row hkk hrow w hw
      refine ⟨_, rfl, .inl ?_⟩
      rw [show w 0 = row 0 from hw.1 0]
      match kk, hkk, hrow with
      | 0, _, hrow => cases hrow; rfl
      | 1, _, hrow => cases hrow; rfl) (rows := [![1, 4, 9], ![2, 2, 2]]) rfl (.inl rfl) (fun _ _ _ => 1)
  exact ⟨res, st, cr, P, h1, h2, h3, fun o ho => ⟨(h4 0 o _ ho rfl).1, fun x hx => (h4 0 o _ ho rfl).2 1 2 x hx⟩⟩

/-- C130 fails for a vector: a variance for each point -/
example : ∃ res st credible P, calculateIntervals (F := ℚ) [![1], ![2]] ⟨(![0] : Fin 1 → Fin 1), ![7], ()⟩ ()
      (fun w _ => .ok (.vec [w 0, w 0])) (.inr (.two 2 [![1, 4], ![2, 2]])) (propObs 0 fun _ _ _ => 1)
      [0, 1] = .ok (res, st) ∧ intervalsReturned false st = .ok [(credible, some P)] ∧
    ∀ o x, P[0]? = some o → o[1]? = some x → Observation (F := ℚ) 0 1 1 4 x := by
  obtain ⟨res, st, cr, P, h1, h2, -, h4⟩ := C130_points_refuted (F := ℚ) (parind := (![0] : Fin 1 → Fin 1))
    (fun a b _ => Subsingleton.elim a b) (chain := [![1], ![2]]) (theta := ![7]) () (data := ())
    (model := fun w _ => .ok (.vec [w 0, w 0])) (iis := [0, 1]) (by simp) (r := 2) le_rfl
    (Y := fun kk _ => if kk = 0 then 1 else 2) (by
      intro kk row hkk hrow w hw
      rw [show w 0 = row 0 from hw.1 0]
      match kk, hkk, hrow with
      | 0, _, hrow => cases hrow; rfl
      | 1, _, hrow => cases hrow; rfl) (rows := [![1, 4], ![2, 2]]) rfl (.inl rfl) (fun _ _ _ => 1)
  exact ⟨res, st, cr, P, h1, h2, fun o x ho hx => (h4 0 o _ ho rfl).2 1 x hx⟩

end output

end Verif
