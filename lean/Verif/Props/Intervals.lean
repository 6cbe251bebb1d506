import Verif.Model.Intervals
import Verif.Props.Propagation
import Verif.Props.Quantiles

/-!
# Property C80: credible and prediction intervals of all data sets
-/

set_option linter.unusedSectionVars false

namespace Verif

section
variable {K D : Type} [Field K] {N p : ℕ}

/-- the parameters that apply to data set `ii`: those marked with 0 and those marked with `ii`, in
the order of the parameter vector -/
def Applying (loc : Fin N → ℤ) (ii : ℕ) (v : Vec K N) : List K :=
  ((List.finRange N).filter fun k => loc k = 0 ∨ loc k = ii).map v

/-- `y` is the response of model function `f` for data set number `ii` to the parameters in row `k`
of the chain (the parameters that are not sampled have the values in `results['theta']`) -/
def RespondsWith (R : IntResults K N p) (f : D → List K → Except PyErr (ModelOut K)) (d : D) (ii : ℕ)
    (k : ℕ) (y : ModelOut K) : Prop :=
  ∃ row v, R.chain[k]? = some row ∧ AtRow R.parind R.theta v row ∧
    f d (Applying R.loc ii v) = .ok y

/-- `k` is the row of an array with `len` rows that position `idx` (counted from the end if
negative) of the array without its first `burnin` rows refers to -/
def RowOf (burnin len : ℕ) (idx : ℤ) (k : ℕ) : Prop :=
  burnin ≤ k ∧ k < len ∧ (k : ℤ) = if 0 ≤ idx then burnin + idx else len + idx

/-- entry in row `i` and column `j` of a response with `ncol` columns -/
def ModelOut.entry (y : ModelOut K) (ncol i j : ℕ) : K := y.flat.getD (i * ncol + j) 0

theorem flatten_get {r c : ℕ} : ∀ (rows : List (List K)), rows.length = r →
    (∀ l ∈ rows, l.length = c) → ∀ (i j : ℕ) (l : List K), rows[i]? = some l → j < c →
    rows.flatten[i * c + j]? = l[j]? := by
  intro rows
  induction rows generalizing r with
  | nil => intro _ _ i j l h; simp at h
  | cons a rows ih =>
    intro hr hc i j l h hj
    have ha : a.length = c := hc a (by simp)
    cases i with
    | zero =>
      simp only [List.getElem?_cons_zero, Option.some.injEq] at h
      subst h
      rw [List.flatten_cons, Nat.zero_mul, Nat.zero_add, List.getElem?_append_left (by omega)]
    | succ i =>
      rw [List.getElem?_cons_succ] at h
      rw [List.flatten_cons, List.getElem?_append_right (by rw [ha, Nat.succ_mul]; omega), ha,
        show (i + 1) * c + j - c = i * c + j by rw [Nat.succ_mul]; omega]
      exact ih rfl (fun x hx => hc x (by simp [hx])) i j l h hj

/-- of a two-dimensional response this is the entry itself -/
theorem ModelOut.entry_mat {r c : ℕ} (A : Fin r → Fin c → K) (i : Fin r) (j : Fin c) :
    (ModelOut.mat r c A).entry c i j = A i j := by
  unfold ModelOut.entry ModelOut.flat
  rw [List.getD_eq_getElem?_getD, flatten_get (r := r) (c := c) _ (by simp) (by
    intro l hl
    obtain ⟨k, rfl⟩ := (List.mem_ofFn' _ _).1 hl
    simp) i j (List.ofFn (A i)) (by simp) j.2]
  simp

/-- and of a one-dimensional one the entry with that number -/
theorem ModelOut.entry_vec (l : List K) {i : ℕ} (h : i < l.length) :
    (ModelOut.vec l).entry 1 i 0 = l[i] := by
  simp [ModelOut.entry, ModelOut.flat, h]

/-- numbers of rows and columns of a response, a one-dimensional one being a column -/
def ModelOut.dims : ModelOut K → ℕ × ℕ
  | .vec l => (l.length, 1)
  | .mat r c _ => (r, c)

theorem dims_eq : (ModelOut.dims : ModelOut K → ℕ × ℕ) = ModelOut.shape := by
  funext y; cases y <;> rfl

/-- the model function for data set `ii`: the only one, or the one with that number -/
def ModelFun.own (mf : ModelFun D K) (ii : ℕ) : Option (D → List K → Except PyErr (ModelOut K)) :=
  match mf with
  | .single f => some f
  | .several fs => fs[ii]?

theorem own_iff {mf : ModelFun D K} {ii : ℕ} {f : D → List K → Except PyErr (ModelOut K)} :
    mf.own ii = some f ↔ mf.at ii = .ok f := by
  cases mf with
  | single g => simp [ModelFun.own, ModelFun.at]
  | several fs => simp only [ModelFun.own, ModelFun.at]; exact pyGet_ok.symm

/-- an observation with model value `a` and error `e`, for the three kinds of errors -/
def observed (sqrt exp : K → K) (sstype : ℤ) (a e : K) : K :=
  if sstype = 0 then a + e else if sstype = 1 then (sqrt a + e) ^ 2 else a * exp e

/-- column of the error-variance chain (with `n` columns) that belongs to column `jj` of data set
`ii`; `ncols` are the numbers of columns of the data sets -/
def VarianceColumn (ncols : List ℕ) (n ii jj c : ℕ) : Prop :=
  (n = 1 ∧ c = 0) ∨ (n ≠ 1 ∧ ncols.sum = n ∧ c = (ncols.take ii).sum + jj) ∨
    (n ≠ 1 ∧ ncols.sum ≠ n ∧ n = ncols.length ∧ c = ii)

theorem selectLocal_eq (loc : Fin N → ℤ) (ii : ℕ) (v : Vec K N) :
    selectLocal loc ii v = Applying loc ii v := by
  unfold selectLocal Applying
  congr 2
  funext k
  simp

theorem noiseTerm_eq (sqrt : K → K) {nrow ncol : ℕ} (s2 : Fin ncol → K) (z : ℕ → ℕ → K)
    (i : Fin nrow) (j : Fin ncol) : noiseTerm sqrt s2 z i j = z i j * sqrt (s2 j) := by
  unfold noiseTerm
  rw [Finset.sum_eq_single j]
  · simp
  · intro b _ hb; simp [hb]
  · simp

theorem pyRow_drop {α : Type} {l : List α} {b : ℕ} {idx : ℤ} {x : α}
    (h : pyRow (l.drop b) idx = .ok x) : ∃ k, RowOf b l.length idx k ∧ l[k]? = some x := by
  unfold pyRow at h
  split at h
  · rename_i h0
    have h := pyGet_ok.1 h
    rw [List.getElem?_drop] at h
    refine ⟨b + idx.toNat, ⟨by omega, ?_, ?_⟩, h⟩
    · exact (List.getElem?_eq_some_iff.1 h).1
    · rw [if_pos h0]; push_cast; rw [Int.toNat_of_nonneg h0]
  · rename_i h0
    split at h
    · rename_i h1
      have h := pyGet_ok.1 h
      rw [List.getElem?_drop] at h
      have hlt := (List.getElem?_eq_some_iff.1 h).1
      refine ⟨_, ⟨by omega, hlt, ?_⟩, h⟩
      rw [if_neg h0]
      push_cast
      rw [Int.toNat_of_nonneg h1]
      have hlen : (l.drop b).length = l.length - b := List.length_drop
      have : b ≤ l.length := by omega
      rw [hlen, Nat.cast_sub this]
      ring
    · cases h

theorem reshapeOut_ok {y : ModelOut K} {nrow ncol : ℕ} {z : Fin nrow → Fin ncol → K}
    (h : reshapeOut y nrow ncol = .ok z) :
    y.size = nrow * ncol ∧ ∀ i j, z i j = y.entry ncol i j := by
  unfold reshapeOut at h
  split at h
  · rename_i hs; cases h; exact ⟨hs, fun _ _ => rfl⟩
  · cases h

theorem observationSampleMat_ok {sqrt exp : K → K} {nrow ncol : ℕ} {s2 : List K}
    {y o : Fin nrow → Fin ncol → K} {sst : ℤ} {z : ℕ → ℕ → K}
    (h : observationSampleMat sqrt exp s2 y sst z = .ok o) :
    (sst = 0 ∨ sst = 1 ∨ sst = 2) ∧ ∃ s2', expandS2 s2 ncol = .ok s2' ∧
      ∀ i j, o i j = observed sqrt exp sst (y i j) (z i j * sqrt (s2'.getD j 0)) := by
  unfold observationSampleMat at h
  obtain ⟨s2', hs2, h⟩ := bind_ok.1 h
  dsimp only at h
  split at h
  · rename_i h0; cases h
    refine ⟨.inl h0, s2', hs2, fun i j => ?_⟩
    unfold observed; rw [if_pos h0]; dsimp only; rw [noiseTerm_eq]
  · split at h
    · rename_i h0 h1; cases h
      refine ⟨.inr (.inl h1), s2', hs2, fun i j => ?_⟩
      unfold observed; rw [if_neg h0, if_pos h1]; dsimp only; rw [noiseTerm_eq]
    · split at h
      · rename_i h0 h1 h2; cases h
        refine ⟨.inr (.inr h2), s2', hs2, fun i j => ?_⟩
        unfold observed; rw [if_neg h0, if_neg h1]; dsimp only; rw [noiseTerm_eq]
      · cases h

/-- the response `y` (as matrix) of the model to the sampled values `row` -/
def Responds (parind : Fin p → Fin N) (loc : Fin N → ℤ) (ii : ℕ) (q0 : Vec K N)
    (f : D → List K → Except PyErr (ModelOut K)) (d : D) {nrow ncol : ℕ} (row : Vec K p)
    (y : Fin nrow → Fin ncol → K) : Prop :=
  ∃ v out, AtRow parind q0 v row ∧ f d (Applying loc ii v) = .ok out ∧ reshapeOut out nrow ncol = .ok y

theorem calcCredibleII_ok {parind : Fin p → Fin N} (hinj : Function.Injective parind)
    {loc : Fin N → ℤ} {ii : ℕ} {f : D → List K → Except PyErr (ModelOut K)} {d : D} {nrow ncol : ℕ}
    {q0 : Vec K N} : ∀ {rows : List (Vec K p)} {theta : Vec K N}
      {r : Vec K N × List (Fin nrow → Fin ncol → K)},
      (∀ k, (∀ j, parind j ≠ k) → theta k = q0 k) →
      calcCredibleII parind loc ii f d nrow ncol rows theta = .ok r →
      (∀ k, (∀ j, parind j ≠ k) → r.1 k = q0 k) ∧ r.2.length = rows.length ∧
      ∀ (kk : ℕ) (row : Vec K p), rows[kk]? = some row →
        ∃ y, r.2[kk]? = some y ∧ Responds parind loc ii q0 f d row y := by
  intro rows
  induction rows with
  | nil => intro theta r hq h; cases h; exact ⟨hq, rfl, by simp⟩
  | cons isa rest ih =>
    intro theta r hq h
    unfold calcCredibleII at h
    obtain ⟨out, ho, h⟩ := bind_ok.1 h
    obtain ⟨y, hy, h⟩ := bind_ok.1 h
    obtain ⟨r1, h1, h⟩ := bind_ok.1 h
    cases h
    have hat := setParams_atRow hinj hq isa
    obtain ⟨a1, a2, a3⟩ := ih hat.2 h1
    refine ⟨a1, by simp [a2], fun kk row hrow => ?_⟩
    cases kk with
    | zero =>
      rw [List.getElem?_cons_zero] at hrow
      cases hrow
      rw [selectLocal_eq] at ho
      exact ⟨y, rfl, _, out, hat, ho, hy⟩
    | succ kk => exact a3 kk row (by simpa using hrow)

theorem calcPredictionII_ok {sqrt exp : K → K} {parind : Fin p → Fin N}
    (hinj : Function.Injective parind)
    {loc : Fin N → ℤ} {ii : ℕ} {f : D → List K → Except PyErr (ModelOut K)} {d : D} {nrow ncol : ℕ}
    {sst : ℤ} {noise : ℕ → ℕ → ℕ → K} {tests2 : List (List K)}
    {q0 : Vec K N} : ∀ {rows : List (Vec K p)} {k0 : ℕ} {theta : Vec K N}
      {r : Vec K N × List (Fin nrow → Fin ncol → K) × List (Fin nrow → Fin ncol → K)},
      (∀ k, (∀ j, parind j ≠ k) → theta k = q0 k) →
      calcPredictionII sqrt exp parind loc ii f d nrow ncol sst noise tests2 k0 rows theta = .ok r →
      (∀ k, (∀ j, parind j ≠ k) → r.1 k = q0 k) ∧ r.2.1.length = rows.length ∧
      r.2.2.length = rows.length ∧
      ∀ (kk : ℕ) (row : Vec K p), rows[kk]? = some row →
        ∃ y o s2, r.2.1[kk]? = some y ∧ Responds parind loc ii q0 f d row y ∧
          r.2.2[kk]? = some o ∧ tests2[k0 + kk]? = some s2 ∧
          observationSampleMat sqrt exp s2 y sst (noise (k0 + kk)) = .ok o := by
  intro rows
  induction rows with
  | nil => intro k0 theta r hq h; cases h; exact ⟨hq, rfl, rfl, by simp⟩
  | cons isa rest ih =>
    intro k0 theta r hq h
    unfold calcPredictionII at h
    obtain ⟨out, ho, h⟩ := bind_ok.1 h
    obtain ⟨y, hy, h⟩ := bind_ok.1 h
    obtain ⟨s2, hs2, h⟩ := bind_ok.1 h
    obtain ⟨o, hob, h⟩ := bind_ok.1 h
    obtain ⟨r1, h1, h⟩ := bind_ok.1 h
    cases h
    have hat := setParams_atRow hinj hq isa
    obtain ⟨a1, a2, a3, a4⟩ := ih hat.2 h1
    refine ⟨a1, by simp [a2], by simp [a3], fun kk row hrow => ?_⟩
    cases kk with
    | zero =>
      rw [List.getElem?_cons_zero] at hrow
      cases hrow
      rw [selectLocal_eq] at ho
      exact ⟨y, o, s2, rfl, ⟨_, out, hat, ho, hy⟩, rfl, by simpa using pyGet_ok.1 hs2, hob⟩
    | succ kk =>
      have := a4 kk row (by simpa using hrow)
      rw [show k0 + 1 + kk = k0 + (kk + 1) by omega] at this
      exact this

theorem determineShape_ok {mf : ModelFun D K} {theta : Vec K N} : ∀ {data : List D} {i0 : ℕ}
    {sh : List (ℕ × ℕ)}, determineShape mf theta i0 data = .ok sh →
    sh.length = data.length ∧ ∀ (ii : ℕ) (d : D), data[ii]? = some d →
      ∃ f y0, mf.at (i0 + ii) = .ok f ∧ f d (List.ofFn theta) = .ok y0 ∧ sh[ii]? = some y0.shape := by
  intro data
  induction data with
  | nil => intro i0 sh h; cases h; exact ⟨rfl, by simp⟩
  | cons d ds ih =>
    intro i0 sh h
    unfold determineShape at h
    obtain ⟨f, hf, h⟩ := bind_ok.1 h
    obtain ⟨y, hy, h⟩ := bind_ok.1 h
    obtain ⟨r, hr, h⟩ := bind_ok.1 h
    cases h
    obtain ⟨a1, a2⟩ := ih hr
    refine ⟨by simp [a1], fun ii d' hd => ?_⟩
    cases ii with
    | zero =>
      rw [List.getElem?_cons_zero] at hd
      cases hd
      exact ⟨f, y, hf, hy, rfl⟩
    | succ ii =>
      have := a2 ii d' (by simpa using hd)
      rw [show i0 + 1 + ii = i0 + (ii + 1) by omega] at this
      exact this

end

section
variable {K D : Type} [Field K] [LinearOrder K] [IsStrictOrderedRing K] [FloorRing K] {N p : ℕ}

theorem generateQuantiles_ok {nrow ncol : ℕ} {resp : List (Fin nrow → Fin ncol → K)} {lims : List K}
    {cols : List (List (List K))} (h : generateQuantiles resp lims = .ok cols) :
    cols.length = ncol ∧ ∀ jj : Fin ncol, ∃ q,
      empiricalQuantiles (resp.map fun y i => y i jj) lims = .ok q ∧
      cols[jj.1]? = some (q.map List.ofFn) := by
  unfold generateQuantiles at h
  have key : ∀ (l : List (Fin ncol)) (cols : List (List (List K))),
      (l.mapM fun jj => (empiricalQuantiles (resp.map fun y i => y i jj) lims).map
        fun q => q.map List.ofFn) = .ok cols → cols.length = l.length ∧
      ∀ (n : ℕ) (jj : Fin ncol), l[n]? = some jj → ∃ q,
        empiricalQuantiles (resp.map fun y i => y i jj) lims = .ok q ∧
        cols[n]? = some (q.map List.ofFn) := by
    intro l
    induction l with
    | nil => intro cols h; cases h; exact ⟨rfl, by simp⟩
    | cons j l ih =>
      intro cols h
      rw [List.mapM_cons] at h
      obtain ⟨c, hc, h⟩ := bind_ok.1 h
      obtain ⟨cs, hcs, h⟩ := bind_ok.1 h
      cases h
      obtain ⟨hl, hk⟩ := ih cs hcs
      refine ⟨by simp [hl], fun n jj hn => ?_⟩
      cases n with
      | zero =>
        rw [List.getElem?_cons_zero] at hn; cases hn
        cases hq : empiricalQuantiles (resp.map fun y i => y i j) lims with
        | error e => rw [hq] at hc; cases hc
        | ok q => rw [hq] at hc; cases hc; exact ⟨q, rfl, rfl⟩
      | succ n => exact hk n jj (by simpa using hn)
  obtain ⟨hl, hk⟩ := key _ _ h
  refine ⟨by simpa using hl, fun jj => hk jj.1 jj ?_⟩
  rw [List.getElem?_eq_getElem (by simp)]
  simp

theorem ciForDataSets_ok {S : IntSetup K D N p} (hinj : Function.Injective S.parind)
    {rows : List (Vec K p)} {lims : List K} {q0 : Vec K N} : ∀ {ds : List D} {i0 : ℕ}
      {theta : Vec K N} {r : Vec K N × List (List (List (List K)))},
      (∀ k, (∀ j, S.parind j ≠ k) → theta k = q0 k) →
      ciForDataSets S rows lims i0 ds theta = .ok r →
      (∀ k, (∀ j, S.parind j ≠ k) → r.1 k = q0 k) ∧ r.2.length = ds.length ∧
      ∀ (ii : ℕ) (d : D), ds[ii]? = some d → ∃ (sh : ℕ × ℕ) (f : _) (cols : _)
        (ys : List (Fin sh.1 → Fin sh.2 → K)),
        S.shapes[i0 + ii]? = some sh ∧ S.modelfun.at (i0 + ii) = .ok f ∧ r.2[ii]? = some cols ∧
        ys.length = rows.length ∧
        (∀ (kk : ℕ) (row : Vec K p), rows[kk]? = some row →
          ∃ y, ys[kk]? = some y ∧ Responds S.parind S.loc (i0 + ii) q0 f d row y) ∧
        generateQuantiles ys lims = .ok cols := by
  intro ds
  induction ds with
  | nil => intro i0 theta r hq h; cases h; exact ⟨hq, rfl, by simp⟩
  | cons d ds ih =>
    intro i0 theta r hq h
    unfold ciForDataSets at h
    obtain ⟨sh, hsh, h⟩ := bind_ok.1 h
    obtain ⟨f, hf, h⟩ := bind_ok.1 h
    obtain ⟨r1, h1, h⟩ := bind_ok.1 h
    obtain ⟨plim, hp, h⟩ := bind_ok.1 h
    obtain ⟨r2, h2, h⟩ := bind_ok.1 h
    cases h
    obtain ⟨a1, a2, a3⟩ := calcCredibleII_ok hinj hq h1
    obtain ⟨b1, b2, b3⟩ := ih a1 h2
    refine ⟨b1, by simp [b2], fun ii d' hd => ?_⟩
    cases ii with
    | zero =>
      rw [List.getElem?_cons_zero] at hd
      cases hd
      exact ⟨sh, f, plim, r1.2, pyGet_ok.1 hsh, hf, rfl, a2, a3, hp⟩
    | succ ii =>
      have := b3 ii d' (by simpa using hd)
      rw [show i0 + 1 + ii = i0 + (ii + 1) by omega] at this
      exact this

theorem ciAndPiForDataSets_ok {sqrt exp : K → K} {S : IntSetup K D N p}
    (hinj : Function.Injective S.parind)
    {rows : List (Vec K p)} {s2rows : List (List K)} {index : List (ℕ × ℕ)} {sst : ℤ}
    {noise : ℕ → ℕ → ℕ → ℕ → K} {lims : List K} {q0 : Vec K N} : ∀ {ds : List D} {i0 : ℕ}
      {theta : Vec K N} {r : Vec K N × List (List (List (List K))) × List (List (List (List K)))},
      (∀ k, (∀ j, S.parind j ≠ k) → theta k = q0 k) →
      ciAndPiForDataSets sqrt exp S rows s2rows index sst noise lims i0 ds theta = .ok r →
      (∀ k, (∀ j, S.parind j ≠ k) → r.1 k = q0 k) ∧ r.2.1.length = ds.length ∧
      r.2.2.length = ds.length ∧
      ∀ (ii : ℕ) (d : D), ds[ii]? = some d → ∃ (sh : ℕ × ℕ) (f : _) (cols pcols : _) (ci : ℕ × ℕ)
        (ys os : List (Fin sh.1 → Fin sh.2 → K)),
        S.shapes[i0 + ii]? = some sh ∧ S.modelfun.at (i0 + ii) = .ok f ∧ r.2.1[ii]? = some cols ∧
        r.2.2[ii]? = some pcols ∧ index[i0 + ii]? = some ci ∧
        ys.length = rows.length ∧ os.length = rows.length ∧
        (∀ (kk : ℕ) (row : Vec K p), rows[kk]? = some row →
          ∃ y o s2, ys[kk]? = some y ∧ Responds S.parind S.loc (i0 + ii) q0 f d row y ∧
            os[kk]? = some o ∧ s2rows[kk]? = some s2 ∧
            observationSampleMat sqrt exp (pySlice s2 ci.1 ci.2) y sst (noise (i0 + ii) kk) = .ok o) ∧
        generateQuantiles ys lims = .ok cols ∧ generateQuantiles os lims = .ok pcols := by
  intro ds
  induction ds with
  | nil => intro i0 theta r hq h; cases h; exact ⟨hq, rfl, rfl, by simp⟩
  | cons d ds ih =>
    intro i0 theta r hq h
    unfold ciAndPiForDataSets at h
    obtain ⟨sh, hsh, h⟩ := bind_ok.1 h
    obtain ⟨f, hf, h⟩ := bind_ok.1 h
    obtain ⟨ci, hci, h⟩ := bind_ok.1 h
    obtain ⟨r1, h1, h⟩ := bind_ok.1 h
    obtain ⟨plim, hp, h⟩ := bind_ok.1 h
    obtain ⟨olim, hol, h⟩ := bind_ok.1 h
    obtain ⟨r2, h2, h⟩ := bind_ok.1 h
    cases h
    obtain ⟨a1, a2, a3, a4⟩ := calcPredictionII_ok hinj hq h1
    obtain ⟨b1, b2, b3, b4⟩ := ih a1 h2
    refine ⟨b1, by simp [b2], by simp [b3], fun ii d' hd => ?_⟩
    cases ii with
    | zero =>
      rw [List.getElem?_cons_zero] at hd
      cases hd
      refine ⟨sh, f, plim, olim, ci, r1.2.1, r1.2.2, pyGet_ok.1 hsh, hf, rfl, rfl, pyGet_ok.1 hci,
        a2, a3, fun kk row hrow => ?_, hp, hol⟩
      obtain ⟨y, o, s2, c1, c2, c3, c4, c5⟩ := a4 kk row hrow
      rw [Nat.zero_add] at c4 c5
      rw [List.getElem?_map] at c4
      cases hs : s2rows[kk]? with
      | none => rw [hs] at c4; cases c4
      | some l =>
        rw [hs] at c4
        cases c4
        exact ⟨y, o, l, c1, c2, c3, rfl, c5⟩
    | succ ii =>
      have := b4 ii d' (by simpa using hd)
      rw [show i0 + 1 + ii = i0 + (ii + 1) by omega] at this
      exact this

/-- the variances used for column `jj` of data set `ii` -/
theorem variance_column {n : ℕ} {ncols : List ℕ} {index : List (ℕ × ℕ)}
    (h : analyzeS2chain n ncols = .ok index) {ii c : ℕ} (hc : ncols[ii]? = some c) {ci : ℕ × ℕ}
    (hci : index[ii]? = some ci) (row : Fin n → K) {s2 : List K}
    (hs : expandS2 (pySlice (List.ofFn row) ci.1 ci.2) c = .ok s2) {jj : ℕ} (hj : jj < c) :
    ∃ k : Fin n, VarianceColumn ncols n ii jj k ∧ s2.getD jj 0 = row k := by
  have hget : ∀ (a : ℕ) (ha : a < n), (List.ofFn row)[a]? = some (row ⟨a, ha⟩) := by
    intro a ha
    rw [List.getElem?_eq_getElem (by simpa using ha)]
    simp
  have hone : ∀ (a : ℕ) (ha : a < n), ci = (a, a + 1) → s2.getD jj 0 = row ⟨a, ha⟩ := by
    intro a ha hcia
    have hsl : pySlice (List.ofFn row) ci.1 ci.2 = [row ⟨a, ha⟩] := by
      rw [hcia]
      unfold pySlice
      apply List.ext_getElem?
      intro m
      rw [List.getElem?_drop]
      cases m with
      | zero => rw [List.getElem?_take_of_lt (by omega), Nat.add_zero, hget a ha]; rfl
      | succ m =>
        rw [List.getElem?_eq_none (by simp)]; simp
    rw [hsl] at hs
    unfold expandS2 at hs
    by_cases h1 : c = 1
    · subst h1
      have : jj = 0 := by omega
      subst this
      rw [if_neg (by simp), if_neg (by simp)] at hs
      cases hs
      rfl
    · rw [if_pos ⟨by simpa using Ne.symm h1, rfl⟩] at hs
      cases hs
      rw [List.getD_eq_getElem?_getD, List.getElem?_replicate, if_pos hj]
      rfl
  unfold analyzeS2chain at h
  split at h
  · rename_i h1
    cases h
    rw [List.getElem?_map, hc] at hci
    cases hci
    exact ⟨⟨0, by omega⟩, .inl ⟨h1, rfl⟩, hone 0 (by omega) rfl⟩
  · rename_i h1
    split at h
    · rename_i h2
      cases h
      rw [s2Ranges_get 0 ncols ii c hc, Nat.zero_add] at hci
      cases hci
      have hle := sum_take_add_le ncols ii c hc
      refine ⟨⟨(ncols.take ii).sum + jj, by omega⟩, .inr (.inl ⟨h1, h2, rfl⟩), ?_⟩
      have hlen : (pySlice (List.ofFn row) (ncols.take ii).sum ((ncols.take ii).sum + c)).length
          = c := by
        unfold pySlice
        rw [List.length_drop, List.length_take, List.length_ofFn]; omega
      unfold expandS2 at hs
      rw [if_neg (by rw [hlen]; omega), if_neg (by rw [hlen]; omega)] at hs
      cases hs
      rw [List.getD_eq_getElem?_getD]
      unfold pySlice
      rw [List.getElem?_drop, List.getElem?_take_of_lt (by omega), hget _ (by omega)]
      rfl
    · rename_i h2
      split at h
      · rename_i h3
        cases h
        have hones : ∀ (l : List ℕ) (m : ℕ), m ≤ l.length →
            ((l.map fun _ => 1).take m).sum = m := by
          intro l
          induction l with
          | nil => intro m hm; simp at hm; simp [hm]
          | cons a l ih =>
            intro m hm
            cases m with
            | zero => simp
            | succ m =>
              simp only [List.map_cons, List.take_succ_cons, List.sum_cons]
              rw [ih m (by simpa using hm)]; omega
        have hii : ii < ncols.length := (List.getElem?_eq_some_iff.1 hc).1
        rw [s2Ranges_get 0 _ ii 1 (by rw [List.getElem?_map, hc]; rfl), Nat.zero_add,
          hones ncols ii (by omega)] at hci
        cases hci
        exact ⟨⟨ii, by omega⟩, .inr (.inr ⟨h1, h2, h3, rfl⟩), hone ii (by omega) rfl⟩
      · cases h

/-- the two sets of limits: with and without prediction intervals -/
def levels (prediction : Bool) : List K :=
  if prediction then [25 / 1000, 1 / 2, 975 / 1000]
  else [5 / 1000, 25 / 1000, 5 / 100, 25 / 100, 1 / 2, 75 / 100, 9 / 10, 975 / 1000, 995 / 1000]

/-- The value `lims` reported for output column `jj` of one data set: the quantiles, at the given
levels, of a sample with one member for every index in `iis`; member `kk` for index `idx` has the
entries `g kk idx i`, row by row. -/
def QuantilesOf (levels : List K) (iis : List ℤ) (nrow : ℕ) (P : ℕ → ℤ → (Fin nrow → K) → Prop)
    (lims : List (List K)) : Prop :=
  ∃ (sample : List (Fin nrow → K)) (q : List (Fin nrow → K)),
    sample.length = iis.length ∧
    (∀ (kk : ℕ) (idx : ℤ), iis[kk]? = some idx → ∃ x, sample[kk]? = some x ∧ P kk idx x) ∧
    empiricalQuantiles sample levels = .ok q ∧ lims = q.map List.ofFn

theorem responds_with {R : IntResults K N p} {burnin : ℕ} {idx : ℤ} {row : Vec K p}
    (hrow : pyRow (R.chain.drop burnin) idx = .ok row) {ii : ℕ}
    {f : D → List K → Except PyErr (ModelOut K)} {d : D} {nrow ncol : ℕ}
    {y : Fin nrow → Fin ncol → K} (hy : Responds R.parind R.loc ii R.theta f d row y) :
    ∃ k out, RowOf burnin R.chain.length idx k ∧ RespondsWith R f d ii k out ∧
      out.size = nrow * ncol ∧ ∀ i j, y i j = out.entry ncol i j := by
  obtain ⟨k, hk, hck⟩ := pyRow_drop hrow
  obtain ⟨v, out, h1, h2, h3⟩ := hy
  obtain ⟨h4, h5⟩ := reshapeOut_ok h3
  exact ⟨k, out, hk, ⟨row, v, hck, h1, h2⟩, h4, h5⟩

/-- **C80, credible intervals.** After a successful preparation and generation there is one entry
per data set.  The entry of data set `ii` has one part for every output column; part `jj` consists of
the quantiles of column `jj` of the model's responses *for that data set* to the sampled rows of the
chain without burn-in.  The model function is the one for that data set, the shape that of its
response to `results['theta']`.  The levels depend on whether prediction intervals are computed. -/
theorem C80_credible {sqrt exp : K → K} {R : IntResults K N p} (hinj : Function.Injective R.parind)
    {data : List D} {mf : ModelFun D K} {burnin : ℕ} {S : IntSetup K D N p}
    (hs : setupIntervals R data mf burnin = .ok S) {sstype : Option ℤ} {nsample : Option ℕ}
    {flag : PyFlag} {draws : List K} {noise : ℕ → ℕ → ℕ → ℕ → K} {out : IntOut K N}
    (hg : generateIntervals sqrt exp S sstype nsample flag draws noise = .ok out) :
    out.credible.length = data.length ∧
    ∃ iis, iis = (defineSamplePoints (nsample.getD (R.chain.length - burnin))
        (R.chain.length - burnin) draws).1 ∧
    ∀ (ii : ℕ) (d : D), data[ii]? = some d → ∃ f y0 cols,
      mf.own ii = some f ∧ f d (List.ofFn R.theta) = .ok y0 ∧ out.credible[ii]? = some cols ∧
      cols.length = y0.dims.2 ∧
      ∀ jj < y0.dims.2, ∃ lims, cols[jj]? = some lims ∧
        QuantilesOf (levels out.prediction.isSome) iis y0.dims.1
          (fun _ idx x => ∃ k y, RowOf burnin R.chain.length idx k ∧ RespondsWith R f d ii k y ∧
            y.size = y0.dims.1 * y0.dims.2 ∧ ∀ i, x i = y.entry y0.dims.2 i jj) lims := by
  simp only [own_iff]
  rw [dims_eq]
  unfold setupIntervals at hs
  dsimp only at hs
  obtain ⟨shapes, hsh, hs⟩ := bind_ok.1 hs
  obtain ⟨s2index, hix, hs⟩ := bind_ok.1 hs
  cases hs
  obtain ⟨hshl, hshape⟩ := determineShape_ok hsh
  unfold generateIntervals at hg
  dsimp only at hg
  obtain ⟨testchain, htc, hg⟩ := bind_ok.1 hg
  obtain ⟨htl, htr⟩ := mapM_pyRow htc
  rw [List.length_drop] at htc htl htr
  generalize hiis : (defineSamplePoints (nsample.getD (R.chain.length - burnin))
        (R.chain.length - burnin) draws).1 = iis at htc htl htr
  -- both branches give the same kind of sample
  have fin : ∀ (lv : List K) (ii : ℕ) (d : D) (sh : ℕ × ℕ) (f : _) (cols : List (List (List K)))
      (ys : List (Fin sh.1 → Fin sh.2 → K)), data[ii]? = some d → shapes[ii]? = some sh →
      mf.at ii = .ok f → ys.length = testchain.length →
      (∀ (kk : ℕ) (row : Vec K p), testchain[kk]? = some row →
          ∃ y, ys[kk]? = some y ∧ Responds R.parind R.loc ii R.theta f d row y) →
      generateQuantiles ys lv = .ok cols → ∃ f y0, mf.at ii = .ok f ∧
        f d (List.ofFn R.theta) = .ok y0 ∧ cols.length = y0.shape.2 ∧
        ∀ jj < y0.shape.2, ∃ lims, cols[jj]? = some lims ∧
        QuantilesOf lv iis y0.shape.1
          (fun _ idx x => ∃ k y, RowOf burnin R.chain.length idx k ∧ RespondsWith R f d ii k y ∧
            y.size = y0.shape.1 * y0.shape.2 ∧ ∀ i, x i = y.entry y0.shape.2 i jj) lims := by
    intro lv ii d sh f cols ys hd hsh' hf hl hr hq
    obtain ⟨f', y0, h1, h2, h3⟩ := hshape ii d hd
    rw [Nat.zero_add, hf] at h1
    cases h1
    rw [hsh'] at h3
    cases h3
    obtain ⟨g1, g2⟩ := generateQuantiles_ok hq
    refine ⟨f, y0, hf, h2, g1, fun jj hjj => ?_⟩
    obtain ⟨q, hq1, hq2⟩ := g2 ⟨jj, hjj⟩
    refine ⟨_, hq2, _, q, by rw [List.length_map, hl, htl], fun kk idx hidx => ?_, hq1, rfl⟩
    obtain ⟨row, hrow, hpr⟩ := htr kk idx hidx
    obtain ⟨y, hy, hresp⟩ := hr kk row hrow
    obtain ⟨k, o, c1, c2, c3, c4⟩ := responds_with hpr hresp
    exact ⟨_, by rw [List.getElem?_map, hy]; rfl, k, o, c1, c2, c3, fun i => c4 i _⟩
  split at hg
  · rename_i hnone
    obtain ⟨r, hr, hg⟩ := bind_ok.1 hg
    cases hg
    rw [hnone] at hr
    obtain ⟨-, a2, a3⟩ := ciForDataSets_ok (q0 := R.theta) hinj (fun _ _ => rfl) hr
    refine ⟨a2, iis, rfl, fun ii d hd => ?_⟩
    obtain ⟨sh, f, cols, ys, b1, b2, b3, b4, b5, b6⟩ := a3 ii d hd
    rw [Nat.zero_add] at b1 b2 b5
    obtain ⟨f', y0, c1, c2, c3, c4⟩ := fin _ ii d sh f cols ys hd b1 b2 b4 b5 b6
    exact ⟨f', y0, cols, c1, c2, b3, c3, c4⟩
  · rename_i s hsome
    obtain ⟨index, hindex, hg⟩ := bind_ok.1 hg
    obtain ⟨s2rows, hs2r, hg⟩ := bind_ok.1 hg
    obtain ⟨r, hr, hg⟩ := bind_ok.1 hg
    cases hg
    rw [hsome] at hr
    obtain ⟨-, a2, -, a3⟩ := ciAndPiForDataSets_ok (q0 := R.theta) hinj (fun _ _ => rfl) hr
    refine ⟨a2, iis, rfl, fun ii d hd => ?_⟩
    obtain ⟨sh, f, cols, pcols, ci, ys, os, b1, b2, b3, -, -, b4, -, b5, b6, -⟩ := a3 ii d hd
    rw [Nat.zero_add] at b1 b2 b5
    obtain ⟨f', y0, c1, c2, c3, c4⟩ := fin _ ii d sh f cols ys hd b1 b2 b4
      (fun kk row hrow => by
        obtain ⟨y, o, s2, e1, e2, -⟩ := b5 kk row hrow
        exact ⟨y, e1, e2⟩) b6
    exact ⟨f', y0, cols, c1, c2, b3, c3, c4⟩

/-- **C80, prediction intervals.** They are computed exactly when the results contain error
variances and the flag is not `False` (or `'off'`).  Then part `jj` of the entry of data set `ii`
consists of the quantiles of sampled observations: the model's response to a sampled row of the chain
and an error term with a normal draw, scaled with the square root of the error variance in the
corresponding row of the error-variance chain and in the column that belongs to column `jj` of that
data set. -/
theorem C80_prediction {sqrt exp : K → K} {R : IntResults K N p} (hinj : Function.Injective R.parind)
    {data : List D} {mf : ModelFun D K} {burnin : ℕ} {S : IntSetup K D N p}
    (hs : setupIntervals R data mf burnin = .ok S) {sstype : Option ℤ} {nsample : Option ℕ}
    {flag : PyFlag} {draws : List K} {noise : ℕ → ℕ → ℕ → ℕ → K} {out : IntOut K N}
    (hg : generateIntervals sqrt exp S sstype nsample flag draws noise = .ok out) :
    (out.prediction.isSome ↔
      R.s2chain.isSome ∧ flag ≠ .bool false ∧ flag ≠ .str "off") ∧
    ∀ (n : ℕ) (s2chain : List (Fin n → K)) (pred : List (List (List (List K)))),
      R.s2chain = some ⟨n, s2chain⟩ → out.prediction = some pred → pred.length = data.length ∧
    ∃ (iis : List ℤ) (ncols : List ℕ), iis = (defineSamplePoints
        (nsample.getD (R.chain.length - burnin)) (R.chain.length - burnin) draws).1 ∧
      ncols.length = data.length ∧
    ∀ (ii : ℕ) (d : D), data[ii]? = some d → ∃ f y0 cols,
      mf.own ii = some f ∧ f d (List.ofFn R.theta) = .ok y0 ∧ ncols[ii]? = some y0.dims.2 ∧
      pred[ii]? = some cols ∧ cols.length = y0.dims.2 ∧
      ∀ jj < y0.dims.2, ∃ lims, cols[jj]? = some lims ∧
        QuantilesOf (levels true) iis y0.dims.1
          (fun kk idx x => ∃ k k2 y s2row, ∃ c : Fin n, ∃ sst : ℤ,
            RowOf burnin R.chain.length idx k ∧ RespondsWith R f d ii k y ∧
            y.size = y0.dims.1 * y0.dims.2 ∧
            RowOf burnin s2chain.length idx k2 ∧ s2chain[k2]? = some s2row ∧
            VarianceColumn ncols n ii jj c ∧
            (sst = 0 ∨ sst = 1 ∨ sst = 2) ∧ (sstype = none → sst = R.sstype.getD 0) ∧
            ∀ i, x i = observed sqrt exp sst (y.entry y0.dims.2 i jj)
              (noise ii kk i jj * sqrt (s2row c))) lims := by
  simp only [own_iff]
  rw [dims_eq]
  unfold setupIntervals at hs
  dsimp only at hs
  obtain ⟨shapes, hsh, hs⟩ := bind_ok.1 hs
  obtain ⟨s2index, hix, hs⟩ := bind_ok.1 hs
  cases hs
  obtain ⟨hshl, hshape⟩ := determineShape_ok hsh
  unfold generateIntervals at hg
  dsimp only at hg
  obtain ⟨testchain, htc, hg⟩ := bind_ok.1 hg
  obtain ⟨htl, htr⟩ := mapM_pyRow htc
  rw [List.length_drop] at htc htl htr
  generalize hiis : (defineSamplePoints (nsample.getD (R.chain.length - burnin))
        (R.chain.length - burnin) draws).1 = iis at htc htl htr
  have hflag : convertFlag flag = .bool false ↔ flag = .bool false ∨ flag = .str "off" := by
    cases flag with
    | bool b => simp [convertFlag]
    | str s =>
      unfold convertFlag
      by_cases h1 : s = "on"
      · subst h1; simp
      · by_cases h2 : s = "off"
        · subst h2; simp
        · simp [h1, h2]
    | other => simp [convertFlag]
  split at hg
  · rename_i hnone
    obtain ⟨r, hr, hg⟩ := bind_ok.1 hg
    cases hg
    refine ⟨?_, fun _ _ _ _ h => by cases h⟩
    constructor
    · intro h; cases h
    · rintro ⟨h1, h2, h3⟩
      rw [if_neg (by rw [hflag]; tauto)] at hnone
      cases hR : R.s2chain with
      | none => rw [hR] at h1; cases h1
      | some s => rw [hR] at hnone; cases hnone
  · rename_i s hsome
    obtain ⟨index, hindex, hg⟩ := bind_ok.1 hg
    obtain ⟨s2rows, hs2r, hg⟩ := bind_ok.1 hg
    obtain ⟨r, hr, hg⟩ := bind_ok.1 hg
    cases hg
    have hf : ¬ convertFlag flag = .bool false := by
      intro h; rw [if_pos h] at hsome; cases hsome
    rw [if_neg hf] at hsome hr
    refine ⟨⟨fun _ => ⟨?_, ?_, ?_⟩, fun _ => rfl⟩, ?_⟩
    · cases hR : R.s2chain with
      | none => rw [hR] at hsome; cases hsome
      | some s => rfl
    · intro h; exact hf (hflag.2 (.inl h))
    · intro h; exact hf (hflag.2 (.inr h))
    intro n s2chain pred hR hpred
    cases hpred
    rw [hR] at hsome hix hr
    cases hsome
    dsimp only [Option.map_some, Option.isSome_some] at hr hix
    cases han : analyzeS2chain n (shapes.map Prod.snd) with
    | error e => rw [han] at hix; cases hix
    | ok index' =>
    rw [han] at hix
    cases hix
    have hindex := orRaise_ok.1 hindex
    cases hindex
    obtain ⟨-, -, a2, a3⟩ := ciAndPiForDataSets_ok (q0 := R.theta) hinj (fun _ _ => rfl) hr
    refine ⟨a2, iis, shapes.map Prod.snd, rfl, by simp [hshl], fun ii d hd => ?_⟩
    obtain ⟨sh, f, cols, pcols, ci, ys, os, b1, b2, -, b3, b4, -, b5, b6, -, b7⟩ := a3 ii d hd
    rw [Nat.zero_add] at b1 b2 b4 b6
    obtain ⟨f', y0, h1, h2, h3⟩ := hshape ii d hd
    dsimp only at b2
    rw [Nat.zero_add, b2] at h1
    cases h1
    dsimp only at b1
    rw [b1] at h3
    cases h3
    obtain ⟨g1, g2⟩ := generateQuantiles_ok b7
    have hnc : (shapes.map Prod.snd)[ii]? = some y0.shape.2 := by rw [List.getElem?_map, b1]; rfl
    refine ⟨f, y0, pcols, b2, h2, hnc, b3, g1, fun jj hjj => ?_⟩
    obtain ⟨q, hq1, hq2⟩ := g2 ⟨jj, hjj⟩
    refine ⟨_, hq2, _, q, by rw [List.length_map, b5, htl], fun kk idx hidx => ?_, hq1, rfl⟩
    obtain ⟨row, hrow, hpr⟩ := htr kk idx hidx
    obtain ⟨y, o, s2, e1, e2, e3, e4, e5⟩ := b6 kk row hrow
    obtain ⟨k, yo, c1, c2, c3, c4⟩ := responds_with hpr e2
    obtain ⟨hs2l, hs2k⟩ := mapM_pyRow hs2r
    rw [List.length_drop, hiis] at hs2k
    obtain ⟨s2row, hs2row, hs2pr⟩ := hs2k kk idx hidx
    obtain ⟨k2, hk2, hck2⟩ := pyRow_drop hs2pr
    rw [List.getElem?_map, hs2row] at e4
    cases e4
    obtain ⟨hsst, s2', hex, hobs⟩ := observationSampleMat_ok e5
    obtain ⟨c, hvc, hval⟩ := variance_column han hnc b4 s2row hex hjj
    refine ⟨_, by rw [List.getElem?_map, e3]; rfl, k, k2, yo, s2row, c, _, c1, c2, c3, hk2, hck2, hvc,
      hsst, ?_, fun i => ?_⟩
    · rintro rfl; rfl
    · dsimp only
      rw [hobs, c4, hval]

theorem levels_mem (b : Bool) : ∀ q ∈ (levels b : List K), 0 ≤ q ∧ q ≤ 1 := by
  intro q hq
  cases b <;> simp only [levels, Bool.false_eq_true, if_false, if_true, List.mem_cons,
    List.not_mem_nil, or_false] at hq
  · rcases hq with h | h | h | h | h | h | h | h | h <;> subst h <;> constructor <;> norm_num
  · rcases hq with h | h | h <;> subst h <;> constructor <;> norm_num

theorem QuantilesOf.two_le {lv : List K} {iis : List ℤ} {nrow : ℕ}
    {P : ℕ → ℤ → (Fin nrow → K) → Prop} {lims : List (List K)} (h : QuantilesOf lv iis nrow P lims) :
    2 ≤ iis.length := by
  obtain ⟨sample, q, h1, -, h3, -⟩ := h
  unfold empiricalQuantiles at h3
  split at h3
  · cases h3
  · omega

/-- **C80, order and range.** Reported limits: one list of `nrow` numbers per level; a larger level
gives larger limits in every row; and whatever bounds hold for all members of the sample in a row
hold for the limits in that row. -/
theorem C80_ordered {b : Bool} {iis : List ℤ} {nrow : ℕ} {P : ℕ → ℤ → (Fin nrow → K) → Prop}
    {lims : List (List K)} (h : QuantilesOf (levels b) iis nrow P lims) :
    lims.length = (if b then 3 else 9) ∧ (∀ l ∈ lims, l.length = nrow) ∧
    (∀ (a c : ℕ) (la lc : List K), a ≤ c → lims[a]? = some la → lims[c]? = some lc →
      ∀ (i : ℕ) (x y : K), la[i]? = some x → lc[i]? = some y → x ≤ y) ∧
    ∀ (i : ℕ) (hi : i < nrow) (lo up : K), (∀ kk idx x, iis[kk]? = some idx → P kk idx x →
        lo ≤ x ⟨i, hi⟩ ∧ x ⟨i, hi⟩ ≤ up) →
      ∀ l ∈ lims, ∀ x, l[i]? = some x → lo ≤ x ∧ x ≤ up := by
  have h2 := h.two_le
  obtain ⟨sample, q, h1, hP, h3, h4⟩ := h
  obtain ⟨v, hv, hvl, hb, hm, -⟩ := C40_order (x := sample) (by omega) (levels_mem b)
  rw [h3] at hv
  cases hv
  subst h4
  have hat : ∀ (a : ℕ) (l : List K), (q.map List.ofFn)[a]? = some l →
      ∃ r : Fin nrow → K, q[a]? = some r ∧ l = List.ofFn r := by
    intro a l hl
    rw [List.getElem?_map] at hl
    cases hq : q[a]? with
    | none => rw [hq] at hl; cases hl
    | some r => rw [hq] at hl; cases hl; exact ⟨r, rfl, rfl⟩
  have hent : ∀ (r : Fin nrow → K) (i : ℕ) (x : K), (List.ofFn r)[i]? = some x →
      ∃ hi : i < nrow, x = r ⟨i, hi⟩ := by
    intro r i x hx
    obtain ⟨hi, he⟩ := List.getElem?_eq_some_iff.1 hx
    rw [List.length_ofFn] at hi
    exact ⟨hi, by rw [← he]; simp⟩
  refine ⟨by rw [List.length_map, hvl]; cases b <;> simp [levels], ?_, ?_, ?_⟩
  · intro l hl
    obtain ⟨r, -, rfl⟩ := List.mem_map.1 hl
    simp
  · intro a c la lc hac hla hlc i x y hx hy
    obtain ⟨ra, hra, rfl⟩ := hat a la hla
    obtain ⟨rc, hrc, rfl⟩ := hat c lc hlc
    obtain ⟨hi, rfl⟩ := hent ra i x hx
    obtain ⟨-, rfl⟩ := hent rc i y hy
    have hal := (List.getElem?_eq_some_iff.1 hra).1
    have hcl := (List.getElem?_eq_some_iff.1 hrc).1
    rw [hvl] at hal hcl
    refine hm a c _ _ ra rc (List.getElem?_eq_getElem hal) (List.getElem?_eq_getElem hcl) hra hrc ?_ _
    have hsorted : (levels b : List K).Pairwise (· ≤ ·) := by
      cases b
      · simp only [levels, Bool.false_eq_true, if_false]
        simp only [List.pairwise_cons, List.mem_cons, List.not_mem_nil, or_false, forall_eq_or_imp,
          forall_eq]
        norm_num
      · simp only [levels, if_true]
        simp only [List.pairwise_cons, List.mem_cons, List.not_mem_nil, or_false, forall_eq_or_imp,
          forall_eq]
        norm_num
    rcases Nat.lt_or_ge a c with hlt | hge
    · exact List.pairwise_iff_getElem.1 hsorted a c hal hcl hlt
    · have : a = c := by omega
      subst this; exact le_refl _
  · intro i hi lo up hall l hl x hx
    obtain ⟨r, hr, rfl⟩ := List.mem_map.1 hl
    obtain ⟨-, rfl⟩ := hent r i x hx
    refine hb r hr _ lo up fun s hs => ?_
    obtain ⟨kk, hkk⟩ := List.getElem?_of_mem hs
    have hlt : kk < iis.length := by rw [← h1]; exact (List.getElem?_eq_some_iff.1 hkk).1
    obtain ⟨x, hx1, hx2⟩ := hP kk _ (List.getElem?_eq_getElem hlt)
    rw [hkk] at hx1
    cases hx1
    exact hall kk _ s (List.getElem?_eq_getElem hlt) hx2

/-- two samples with the same members have the same quantiles -/
theorem QuantilesOf.unique {lv : List K} {iis : List ℤ} {nrow : ℕ}
    {P P' : ℕ → ℤ → (Fin nrow → K) → Prop} {lims lims' : List (List K)}
    (h : QuantilesOf lv iis nrow P lims) (h' : QuantilesOf lv iis nrow P' lims')
    (hu : ∀ kk idx x x', iis[kk]? = some idx → P kk idx x → P' kk idx x' → x = x') : lims = lims' := by
  obtain ⟨s, q, h1, hP, h3, rfl⟩ := h
  obtain ⟨s', q', h1', hP', h3', rfl⟩ := h'
  have : s = s' := by
    apply List.ext_getElem?
    intro kk
    by_cases hlt : kk < iis.length
    · obtain ⟨x, hx, hx'⟩ := hP kk _ (List.getElem?_eq_getElem hlt)
      obtain ⟨z, hz, hz'⟩ := hP' kk _ (List.getElem?_eq_getElem hlt)
      rw [hx, hz, hu kk _ x z (List.getElem?_eq_getElem hlt) hx' hz']
    · rw [List.getElem?_eq_none (by omega), List.getElem?_eq_none (by omega)]
  subst this
  rw [h3] at h3'
  cases h3'
  rfl

theorem RespondsWith.unique {R : IntResults K N p} {f : D → List K → Except PyErr (ModelOut K)} {d : D}
    {ii k : ℕ} {y y' : ModelOut K} (h : RespondsWith R f d ii k y)
    (h' : RespondsWith R f d ii k y') : y = y' := by
  obtain ⟨row, v, h1, h2, h3⟩ := h
  obtain ⟨row', v', h1', h2', h3'⟩ := h'
  rw [h1] at h1'
  cases h1'
  have : v = v' := by
    funext i
    by_cases hi : ∃ j, R.parind j = i
    · obtain ⟨j, rfl⟩ := hi
      rw [h2.1, h2'.1]
    · push Not at hi
      rw [h2.2 i hi, h2'.2 i hi]
  subst this
  rw [h3] at h3'
  cases h3'
  rfl

/-- **C80, no observation errors.** When all error variances are zero (and the errors are of the
ordinary kind), the prediction intervals are the credible intervals, whatever the normal draws. -/
theorem C80_zero_variance {sqrt exp : K → K} (h0 : sqrt 0 = 0) {R : IntResults K N p}
    (hinj : Function.Injective R.parind) (hss : R.sstype.getD 0 = 0)
    {n : ℕ} {s2chain : List (Fin n → K)} (hR : R.s2chain = some ⟨n, s2chain⟩)
    (hz : ∀ r ∈ s2chain, ∀ c, r c = 0)
    {data : List D} {mf : ModelFun D K} {burnin : ℕ} {S : IntSetup K D N p}
    (hs : setupIntervals R data mf burnin = .ok S) {nsample : Option ℕ}
    {flag : PyFlag} {draws : List K} {noise : ℕ → ℕ → ℕ → ℕ → K} {out : IntOut K N}
    (hg : generateIntervals sqrt exp S none nsample flag draws noise = .ok out)
    {pred : List (List (List (List K)))} (hp : out.prediction = some pred) : pred = out.credible := by
  obtain ⟨hl, iis, hiis, hc⟩ := C80_credible hinj hs hg
  obtain ⟨-, hpr⟩ := C80_prediction hinj hs hg
  obtain ⟨hl', iis', ncols, hiis', -, hpr⟩ := hpr n s2chain pred hR hp
  rw [← hiis] at hiis'
  subst hiis'
  apply List.ext_getElem?
  intro ii
  by_cases hii : ii < data.length
  · obtain ⟨f, y0, cols, a1, a2, a3, a4, a5⟩ := hc ii _ (List.getElem?_eq_getElem hii)
    obtain ⟨f', y0', pcols, b1, b2, -, b3, b4, b5⟩ := hpr ii _ (List.getElem?_eq_getElem hii)
    rw [a1] at b1
    cases b1
    rw [a2] at b2
    cases b2
    rw [a3, b3]
    congr 1
    apply List.ext_getElem?
    intro jj
    by_cases hjj : jj < y0.dims.2
    · obtain ⟨lims, c1, c2⟩ := a5 jj hjj
      obtain ⟨plims, d1, d2⟩ := b5 jj hjj
      rw [hp] at c2
      rw [c1, d1]
      congr 1
      refine d2.unique c2 ?_
      rintro kk idx x x' hidx ⟨k, k2, y, s2row, c, sst, e1, e2, e3, e4, e5, e6, e7, e8, e9⟩
        ⟨k', y', g1, g2, g3, g4⟩
      have hk : k = k' := by
        have := e1.2.2; have := g1.2.2; omega
      subst hk
      have hy := e2.unique g2
      subst hy
      funext i
      rw [e9, g4, hz s2row (List.mem_of_getElem? e5), h0, mul_zero, e8 rfl, hss]
      simp [observed]
    · rw [List.getElem?_eq_none (by omega), List.getElem?_eq_none (by omega)]
  · rw [List.getElem?_eq_none (by omega), List.getElem?_eq_none (by omega)]

/-- **C80, sign of the prediction limits.** With square-root errors no prediction limit is
negative; with logarithmic errors none is if no response of the model is and the exponential
function has no negative value. -/
theorem C80_nonnegative {sqrt exp : K → K} (hexp : ∀ x, 0 ≤ exp x) {R : IntResults K N p}
    (hinj : Function.Injective R.parind)
    {data : List D} {mf : ModelFun D K} {burnin : ℕ} {S : IntSetup K D N p}
    (hs : setupIntervals R data mf burnin = .ok S) {nsample : Option ℕ}
    {flag : PyFlag} {draws : List K} {noise : ℕ → ℕ → ℕ → ℕ → K} {out : IntOut K N}
    (hg : generateIntervals sqrt exp S none nsample flag draws noise = .ok out)
    {pred : List (List (List (List K)))} (hp : out.prediction = some pred)
    (hss : R.sstype = some 1 ∨ (R.sstype = some 2 ∧ ∀ ii f d k y, mf.own ii = some f →
      RespondsWith R f d ii k y → ∀ x ∈ y.flat, 0 ≤ x)) :
    ∀ cols ∈ pred, ∀ lims ∈ cols, ∀ l ∈ lims, ∀ x ∈ l, 0 ≤ x := by
  obtain ⟨hsome, hpr⟩ := C80_prediction hinj hs hg
  obtain ⟨hR, -⟩ := hsome.1 (by rw [hp]; rfl)
  obtain ⟨⟨n, s2chain⟩, hR⟩ := Option.isSome_iff_exists.1 hR
  obtain ⟨hl', iis, ncols, hiis, -, hpr⟩ := hpr n s2chain pred hR hp
  intro cols hcols lims hlims l hll x hx
  obtain ⟨ii, hii⟩ := List.getElem?_of_mem hcols
  have hlt : ii < data.length := by rw [← hl']; exact (List.getElem?_eq_some_iff.1 hii).1
  obtain ⟨f, y0, cols', b1, b2, -, b3, b4, b5⟩ := hpr ii _ (List.getElem?_eq_getElem hlt)
  rw [hii] at b3
  cases b3
  obtain ⟨jj, hjj⟩ := List.getElem?_of_mem hlims
  have hjlt : jj < y0.dims.2 := by rw [← b4]; exact (List.getElem?_eq_some_iff.1 hjj).1
  obtain ⟨lims', c1, c2⟩ := b5 jj hjlt
  rw [hjj] at c1
  cases c1
  obtain ⟨i, hi⟩ := List.getElem?_of_mem hx
  have two := c2.two_le
  obtain ⟨-, hlen, -, -⟩ := C80_ordered c2
  have hilt : i < y0.dims.1 := by rw [← hlen l hll]; exact (List.getElem?_eq_some_iff.1 hi).1
  obtain ⟨s, q, h1, hP, h3, rfl⟩ := c2
  obtain ⟨v, hv, -, hb, -⟩ := C40_order (x := s) (by omega) (levels_mem true)
  rw [h3] at hv
  cases hv
  obtain ⟨r, hr, rfl⟩ := List.mem_map.1 hll
  have hxr : x = r ⟨i, hilt⟩ := by
    obtain ⟨_, he⟩ := List.getElem?_eq_some_iff.1 hi
    rw [← he]; simp
  rw [hxr]
  have hnn : ∀ s' ∈ s, 0 ≤ s' ⟨i, hilt⟩ := by
    intro s' hs'
    obtain ⟨kk, hkk⟩ := List.getElem?_of_mem hs'
    have hkl : kk < iis.length := by rw [← h1]; exact (List.getElem?_eq_some_iff.1 hkk).1
    obtain ⟨z, hz1, k, k2, y, s2row, c, sst, e1, e2, e3, e4, e5, e6, e7, e8, e9⟩ :=
      hP kk _ (List.getElem?_eq_getElem hkl)
    rw [hkk] at hz1
    cases hz1
    rw [e9, e8 rfl]
    rcases hss with hss | ⟨hss, hpos⟩
    · rw [hss]; simp only [observed, Option.getD_some]; norm_num; positivity
    · rw [hss]
      simp only [observed, Option.getD_some]
      norm_num
      refine mul_nonneg ?_ (hexp _)
      unfold ModelOut.entry
      rw [List.getD_eq_getElem?_getD]
      cases hm : y.flat[i * y0.dims.2 + jj]? with
      | none => exact le_refl _
      | some w => exact hpos ii f _ k y b1 e2 w (List.mem_of_getElem? hm)
  -- an upper bound exists since the sample is finite
  have hub : ∃ up, ∀ s' ∈ s, s' ⟨i, hilt⟩ ≤ up := by
    clear hP h3 hb hnn h1
    induction s with
    | nil => exact ⟨0, by simp⟩
    | cons a s ih =>
      obtain ⟨u, hu⟩ := ih
      refine ⟨max (a ⟨i, hilt⟩) u, fun s' hs' => ?_⟩
      rcases List.mem_cons.1 hs' with rfl | h
      · exact le_max_left _ _
      · exact (hu s' h).trans (le_max_right _ _)
  obtain ⟨up, hup⟩ := hub
  exact (hb r hr ⟨i, hilt⟩ 0 up fun s' hs' => ⟨hnn s' hs', hup s' hs'⟩).1

/-- the model function for every data set accepts all parameters and its responses have a fixed
shape -/
def FixedShape (mf : ModelFun D K) (data : List D) (sh : ℕ → ℕ × ℕ) : Prop :=
  ∀ (ii : ℕ) (d : D), data[ii]? = some d → ∃ f, mf.own ii = some f ∧
    ∀ th, ∃ y, f d th = .ok y ∧ y.dims = sh ii

theorem size_eq_shape (y : ModelOut K) : y.size = y.shape.1 * y.shape.2 := by
  cases y <;> simp [ModelOut.size, ModelOut.shape]

theorem determineShape_returns {mf : ModelFun D K} {sh : ℕ → ℕ × ℕ} {theta : Vec K N} :
    ∀ {data : List D} {i0 : ℕ}, (∀ (ii : ℕ) (d : D), data[ii]? = some d → ∃ f, mf.at (i0 + ii) = .ok f ∧
      ∀ th, ∃ y, f d th = .ok y ∧ y.shape = sh (i0 + ii)) →
    determineShape mf theta i0 data = .ok ((List.range' i0 data.length).map sh) := by
  intro data
  induction data with
  | nil => intro i0 _; rfl
  | cons d ds ih =>
    intro i0 h
    obtain ⟨f, hf, hy⟩ := h 0 d rfl
    obtain ⟨y, hy, hs⟩ := hy (List.ofFn theta)
    unfold determineShape
    rw [Nat.add_zero] at hf hs
    rw [hf, ok_bind, hy, ok_bind, ih (i0 := i0 + 1) (fun ii d' hd => by
      have := h (ii + 1) d' (by simpa using hd)
      rw [show i0 + (ii + 1) = i0 + 1 + ii by omega] at this
      exact this), ok_bind, hs]
    rfl

theorem reshapeOut_returns {y : ModelOut K} {s : ℕ × ℕ} (h : y.shape = s) :
    ∃ z, reshapeOut y s.1 s.2 = .ok z := by
  unfold reshapeOut
  rw [if_pos (by rw [size_eq_shape, h])]
  exact ⟨_, rfl⟩

theorem calcCredibleII_returns {parind : Fin p → Fin N} {loc : Fin N → ℤ} {ii : ℕ}
    {f : D → List K → Except PyErr (ModelOut K)} {d : D} {s : ℕ × ℕ}
    (hf : ∀ th, ∃ y, f d th = .ok y ∧ y.shape = s) : ∀ (rows : List (Vec K p)) (theta : Vec K N),
    ∃ r, calcCredibleII parind loc ii f d s.1 s.2 rows theta = .ok r ∧ r.2.length = rows.length := by
  intro rows
  induction rows with
  | nil => intro theta; exact ⟨_, rfl, rfl⟩
  | cons isa rest ih =>
    intro theta
    obtain ⟨y, hy, hs⟩ := hf (selectLocal loc ii (setParams parind theta isa))
    obtain ⟨z, hz⟩ := reshapeOut_returns hs
    obtain ⟨r, hr, hl⟩ := ih (setParams parind theta isa)
    unfold calcCredibleII
    dsimp only
    rw [hy, ok_bind, hz, ok_bind, hr, ok_bind]
    exact ⟨_, rfl, by simp [hl]⟩

theorem calcPredictionII_returns {sqrt exp : K → K} {parind : Fin p → Fin N} {loc : Fin N → ℤ} {ii : ℕ}
    {f : D → List K → Except PyErr (ModelOut K)} {d : D} {s : ℕ × ℕ}
    (hf : ∀ th, ∃ y, f d th = .ok y ∧ y.shape = s) {sst : ℤ} (hsst : sst = 0 ∨ sst = 1 ∨ sst = 2)
    {noise : ℕ → ℕ → ℕ → K} {tests2 : List (List K)}
    (hs2 : ∀ l ∈ tests2, ∃ l', expandS2 l s.2 = .ok l') :
    ∀ (rows : List (Vec K p)) (k0 : ℕ) (theta : Vec K N), k0 + rows.length ≤ tests2.length →
    ∃ r, calcPredictionII sqrt exp parind loc ii f d s.1 s.2 sst noise tests2 k0 rows theta = .ok r ∧
      r.2.1.length = rows.length ∧ r.2.2.length = rows.length := by
  intro rows
  induction rows with
  | nil => intro k0 theta _; exact ⟨_, rfl, rfl, rfl⟩
  | cons isa rest ih =>
    intro k0 theta hk
    rw [List.length_cons] at hk
    obtain ⟨y, hy, hs⟩ := hf (selectLocal loc ii (setParams parind theta isa))
    obtain ⟨z, hz⟩ := reshapeOut_returns hs
    obtain ⟨r, hr, hl, hl'⟩ := ih (k0 + 1) (setParams parind theta isa) (by omega)
    have hlt : k0 < tests2.length := by omega
    obtain ⟨l', hl2⟩ := hs2 _ (List.getElem_mem hlt)
    have ho : ∃ o, observationSampleMat sqrt exp tests2[k0] z sst (noise k0) = .ok o := by
      unfold observationSampleMat
      rw [hl2, ok_bind]
      dsimp only
      rcases hsst with h | h | h <;> subst h
      · exact ⟨_, rfl⟩
      · exact ⟨_, rfl⟩
      · exact ⟨_, rfl⟩
    obtain ⟨o, ho⟩ := ho
    unfold calcPredictionII
    dsimp only
    rw [hy, ok_bind, hz, ok_bind, pyGet_ok.2 (List.getElem?_eq_getElem hlt), ok_bind, ho, ok_bind, hr,
      ok_bind]
    exact ⟨_, rfl, by simp [hl], by simp [hl']⟩

theorem generateQuantiles_returns {nrow ncol : ℕ} {resp : List (Fin nrow → Fin ncol → K)}
    (h : 2 ≤ resp.length) (b : Bool) : ∃ cols, generateQuantiles resp (levels b) = .ok cols := by
  unfold generateQuantiles
  generalize List.finRange ncol = l
  induction l with
  | nil => exact ⟨_, rfl⟩
  | cons j l ih =>
    obtain ⟨cs, hcs⟩ := ih
    rw [List.mapM_cons, empiricalQuantiles_ok (by simpa using h) (levels_mem b), hcs]
    exact ⟨_, rfl⟩

theorem ciForDataSets_returns {S : IntSetup K D N p} {sh : ℕ → ℕ × ℕ}
    {rows : List (Vec K p)} (hrows : 2 ≤ rows.length) (b : Bool) : ∀ {ds : List D} {i0 : ℕ}
      {theta : Vec K N}, (∀ (ii : ℕ) (d : D), ds[ii]? = some d → S.shapes[i0 + ii]? = some (sh (i0 + ii)) ∧
        ∃ f, S.modelfun.at (i0 + ii) = .ok f ∧ ∀ th, ∃ y, f d th = .ok y ∧ y.shape = sh (i0 + ii)) →
      ∃ r, ciForDataSets S rows (levels b) i0 ds theta = .ok r := by
  intro ds
  induction ds with
  | nil => intro i0 theta _; exact ⟨_, rfl⟩
  | cons d ds ih =>
    intro i0 theta h
    obtain ⟨h1, f, hf, hy⟩ := h 0 d rfl
    rw [Nat.add_zero] at h1 hf hy
    obtain ⟨r, hr, hl⟩ := calcCredibleII_returns (parind := S.parind) (loc := S.loc) (ii := i0) hy
      rows theta
    obtain ⟨cols, hq⟩ := generateQuantiles_returns (resp := r.2) (by omega) b
    obtain ⟨r2, hr2⟩ := ih (i0 := i0 + 1) (theta := r.1) (fun ii d' hd => by
      have := h (ii + 1) d' (by simpa using hd)
      rw [show i0 + (ii + 1) = i0 + 1 + ii by omega] at this
      exact this)
    unfold ciForDataSets
    rw [pyGet_ok.2 h1, ok_bind, hf, ok_bind, hr, ok_bind, hq, ok_bind, hr2, ok_bind]
    exact ⟨_, rfl⟩

theorem ciAndPiForDataSets_returns {sqrt exp : K → K} {S : IntSetup K D N p} {sh : ℕ → ℕ × ℕ}
    {rows : List (Vec K p)} (hrows : 2 ≤ rows.length) (b : Bool) {s2rows : List (List K)}
    (hlen : s2rows.length = rows.length) {index : List (ℕ × ℕ)} {sst : ℤ}
    (hsst : sst = 0 ∨ sst = 1 ∨ sst = 2) {noise : ℕ → ℕ → ℕ → ℕ → K} : ∀ {ds : List D} {i0 : ℕ}
      {theta : Vec K N}, (∀ (ii : ℕ) (d : D), ds[ii]? = some d → S.shapes[i0 + ii]? = some (sh (i0 + ii)) ∧
        (∃ ci, index[i0 + ii]? = some ci ∧
          ∀ l ∈ s2rows, ∃ l', expandS2 (pySlice l ci.1 ci.2) (sh (i0 + ii)).2 = .ok l') ∧
        ∃ f, S.modelfun.at (i0 + ii) = .ok f ∧ ∀ th, ∃ y, f d th = .ok y ∧ y.shape = sh (i0 + ii)) →
      ∃ r, ciAndPiForDataSets sqrt exp S rows s2rows index sst noise (levels b) i0 ds theta = .ok r := by
  intro ds
  induction ds with
  | nil => intro i0 theta _; exact ⟨_, rfl⟩
  | cons d ds ih =>
    intro i0 theta h
    obtain ⟨h1, ⟨ci, hci, hex⟩, f, hf, hy⟩ := h 0 d rfl
    rw [Nat.add_zero] at h1 hf hy hci hex
    obtain ⟨r, hr, hl, hl'⟩ := calcPredictionII_returns (sqrt := sqrt) (exp := exp)
      (parind := S.parind) (loc := S.loc) (ii := i0) hy hsst (noise := noise i0)
      (tests2 := s2rows.map fun l => pySlice l ci.1 ci.2)
      (by
        intro l hl
        obtain ⟨l0, hl0, rfl⟩ := List.mem_map.1 hl
        exact hex l0 hl0) rows 0 theta (by simp [hlen])
    obtain ⟨cols, hq⟩ := generateQuantiles_returns (resp := r.2.1) (by omega) b
    obtain ⟨pcols, hq'⟩ := generateQuantiles_returns (resp := r.2.2) (by omega) b
    obtain ⟨r2, hr2⟩ := ih (i0 := i0 + 1) (theta := r.1) (fun ii d' hd => by
      have := h (ii + 1) d' (by simpa using hd)
      rw [show i0 + (ii + 1) = i0 + 1 + ii by omega] at this
      exact this)
    unfold ciAndPiForDataSets
    rw [pyGet_ok.2 h1, ok_bind, hf, ok_bind, pyGet_ok.2 hci, ok_bind, hr, ok_bind, hq, ok_bind, hq',
      ok_bind, hr2, ok_bind]
    exact ⟨_, rfl⟩

theorem mapM_pyRow_returns {α : Type} {l : List α} : ∀ {is : List ℤ},
    (∀ i ∈ is, -(l.length : ℤ) ≤ i ∧ i < l.length) →
    ∃ rows, is.mapM (pyRow l) = .ok rows ∧ rows.length = is.length := by
  intro is
  induction is with
  | nil => intro _; exact ⟨[], rfl, rfl⟩
  | cons i is ih =>
    intro h
    obtain ⟨rows, hr, hl⟩ := ih fun j hj => h j (by simp [hj])
    have hi := h i (by simp)
    have : ∃ x, pyRow l i = .ok x := by
      unfold pyRow
      split
      · have hlt : i.toNat < l.length := by omega
        exact ⟨_, pyGet_ok.2 (List.getElem?_eq_getElem hlt)⟩
      · rw [if_pos (by omega)]
        have hlt : (i + l.length).toNat < l.length := by omega
        exact ⟨_, pyGet_ok.2 (List.getElem?_eq_getElem hlt)⟩
    obtain ⟨x, hx⟩ := this
    rw [List.mapM_cons, hx, hr]
    exact ⟨_, rfl, by simp [hl]⟩

/-- **C80, no exception.** When at least two rows remain after the burn-in, at least two samples are
requested, the model's responses have a fixed shape for every data set, and the error variances (if
any) are as many rows as the chain and fit one of the three readings, preparation and generation
succeed — for all uniform draws in `[0,1]`, all normal draws and every value of the flag. -/
theorem C80_returns {sqrt exp : K → K} {R : IntResults K N p} {data : List D} {mf : ModelFun D K}
    {burnin : ℕ} {sh : ℕ → ℕ × ℕ} (hsh : FixedShape mf data sh)
    (hrows : burnin + 2 ≤ R.chain.length)
    (hs2 : ∀ n s2chain, R.s2chain = some ⟨n, s2chain⟩ → s2chain.length = R.chain.length ∧
      (n = 1 ∨ n = ((List.range data.length).map fun ii => (sh ii).2).sum ∨ n = data.length))
    {sstype : Option ℤ} (hsst : sstype = none → R.sstype.getD 0 ∈ [0, 1, 2])
    {nsample : Option ℕ} {draws : List K} (hns : ∀ m, nsample = some m → 2 ≤ m ∧ m ≤ draws.length)
    (hdraws : ∀ u ∈ draws, 0 ≤ u ∧ u ≤ 1) (flag : PyFlag) (noise : ℕ → ℕ → ℕ → ℕ → K) :
    ∃ S out, setupIntervals R data mf burnin = .ok S ∧
      generateIntervals sqrt exp S sstype nsample flag draws noise = .ok out := by
  unfold FixedShape at hsh
  simp only [own_iff] at hsh
  rw [dims_eq] at hsh
  have hshapes := determineShape_returns (mf := mf) (sh := sh) (theta := R.theta) (data := data)
    (i0 := 0) (fun ii d hd => by simpa using hsh ii d hd)
  have hsh0 : ∀ (ii : ℕ) (d : D), data[ii]? = some d →
      ((List.range' 0 data.length).map sh)[ii]? = some (sh ii) := by
    intro ii d hd
    have hlt := (List.getElem?_eq_some_iff.1 hd).1
    rw [List.getElem?_map, ← List.range_eq_range', List.getElem?_range hlt]
    rfl
  -- sample points
  have hlen : (R.chain.drop burnin).length = R.chain.length - burnin := List.length_drop
  have hii : ∀ m : ℕ, R.chain.length - burnin = m → 2 ≤ (defineSamplePoints (nsample.getD m) m draws).1.length ∧
      ∀ i ∈ (defineSamplePoints (nsample.getD m) m draws).1, -(m : ℤ) ≤ i ∧ i < m := by
    intro m hm
    have hm2 : 2 ≤ m := by omega
    unfold defineSamplePoints
    split
    · refine ⟨by simpa using hm2, fun i hi => ?_⟩
      obtain ⟨k, hk, rfl⟩ := List.mem_map.1 hi
      have := List.mem_range.1 hk
      omega
    · rename_i hlt
      cases hn : nsample with
      | none => rw [hn] at hlt; simp at hlt
      | some q =>
        obtain ⟨h1, h2⟩ := hns q hn
        refine ⟨by simp; omega, fun i hi => ?_⟩
        obtain ⟨u, hu, rfl⟩ := List.mem_map.1 hi
        obtain ⟨u0, u1⟩ := hdraws u (List.mem_of_mem_take hu)
        have hmk : (0 : K) < m := by exact_mod_cast (by omega : 0 < m)
        have c0 : 0 ≤ ⌈u * (m : K)⌉ := Int.ceil_nonneg (mul_nonneg u0 hmk.le)
        have c1 : ⌈u * (m : K)⌉ ≤ m := by
          rw [Int.ceil_le]
          push_cast
          nlinarith
        omega
  obtain ⟨i1, i2⟩ := hii _ rfl
  obtain ⟨testchain, htc, htl⟩ := mapM_pyRow_returns (l := R.chain.drop burnin)
    (is := (defineSamplePoints (nsample.getD (R.chain.length - burnin)) (R.chain.length - burnin)
      draws).1) (by rw [hlen]; exact i2)
  have hci : ∀ (S : IntSetup K D N p), S.chain = R.chain.drop burnin →
      S.shapes = (List.range' 0 data.length).map sh → S.modelfun = mf → S.data = data → ∀ b : Bool,
      ∃ r, ciForDataSets S testchain (levels b) 0 data S.theta = .ok r := by
    intro S h1 h2 h3 h4 b
    refine ciForDataSets_returns (sh := sh) (by omega) b fun ii d hd => ?_
    rw [Nat.zero_add, h2, h3]
    exact ⟨hsh0 ii d hd, hsh ii d hd⟩
  cases hR : R.s2chain with
  | none =>
    let S : IntSetup K D N p :=
      { chain := R.chain.drop burnin, s2chain := none, parind := R.parind, loc := R.loc,
        theta := R.theta, sstype := R.sstype.getD 0, data := data, modelfun := mf,
        shapes := (List.range' 0 data.length).map sh, s2index := none }
    obtain ⟨r, hr⟩ := hci S rfl rfl rfl rfl false
    refine ⟨S, { credible := r.2, prediction := none, theta := r.1 }, ?_, ?_⟩
    · unfold setupIntervals
      rw [hR, hshapes]
      rfl
    · unfold generateIntervals
      dsimp only
      rw [show S.chain = R.chain.drop burnin from rfl, hlen, htc, ok_bind,
        show S.s2chain = none from rfl, ite_self]
      dsimp only
      change (ciForDataSets S testchain (levels false) 0 data S.theta >>= _) = _
      rw [hr]
      rfl
  | some s =>
    obtain ⟨n, s2chain⟩ := s
    obtain ⟨hl2, hn⟩ := hs2 n s2chain hR
    have hsum : ((List.range' 0 data.length).map sh).map Prod.snd =
        (List.range data.length).map fun ii => (sh ii).2 := by
      rw [List.map_map, List.range_eq_range']; rfl
    have han : ∃ index, analyzeS2chain n (((List.range' 0 data.length).map sh).map Prod.snd)
        = .ok index := by
      rw [hsum]
      unfold analyzeS2chain
      split
      · exact ⟨_, rfl⟩
      · split
        · exact ⟨_, rfl⟩
        · rename_i h1 h2
          rw [if_pos (by
            rcases hn with h | h | h
            · exact absurd h h1
            · exact absurd h.symm h2
            · simpa using h)]
          exact ⟨_, rfl⟩
    obtain ⟨index, han⟩ := han
    let S : IntSetup K D N p :=
      { chain := R.chain.drop burnin, s2chain := some ⟨n, s2chain.drop burnin⟩, parind := R.parind,
        loc := R.loc, theta := R.theta, sstype := R.sstype.getD 0, data := data, modelfun := mf,
        shapes := (List.range' 0 data.length).map sh, s2index := some index }
    have hS : setupIntervals R data mf burnin = .ok S := by
      unfold setupIntervals
      rw [hR, hshapes]
      dsimp only [Option.map_some]
      rw [ok_bind, han]
      rfl
    by_cases hf : convertFlag flag = .bool false
    · obtain ⟨r, hr⟩ := hci S rfl rfl rfl rfl false
      refine ⟨S, { credible := r.2, prediction := none, theta := r.1 }, hS, ?_⟩
      unfold generateIntervals
      dsimp only
      rw [show S.chain = R.chain.drop burnin from rfl, hlen, htc, ok_bind, if_pos hf]
      dsimp only
      change (ciForDataSets S testchain (levels false) 0 data S.theta >>= _) = _
      rw [hr]
      rfl
    · obtain ⟨s2rows, hs2r, hs2l⟩ := mapM_pyRow_returns (l := s2chain.drop burnin)
        (is := (defineSamplePoints (nsample.getD (R.chain.length - burnin))
          (R.chain.length - burnin) draws).1) (by
          rw [List.length_drop, hl2]; exact i2)
      have hsst' : setupSstype (R.sstype.getD 0) sstype = 0 ∨
          setupSstype (R.sstype.getD 0) sstype = 1 ∨ setupSstype (R.sstype.getD 0) sstype = 2 := by
        cases hh : sstype with
        | none =>
          have := hsst hh
          simpa [setupSstype] using this
        | some t => left; rfl
      obtain ⟨r, hr⟩ := ciAndPiForDataSets_returns (sqrt := sqrt) (exp := exp) (S := S) (sh := sh)
        (rows := testchain) (by omega) true (s2rows := s2rows.map List.ofFn) (by
          rw [List.length_map, hs2l, htl]) (index := index) hsst' (noise := noise) (ds := data)
        (i0 := 0) (theta := R.theta) (fun ii d hd => by
          rw [Nat.zero_add]
          refine ⟨hsh0 ii d hd, ?_, hsh ii d hd⟩
          have hlt := (List.getElem?_eq_some_iff.1 hd).1
          have hcol : (((List.range' 0 data.length).map sh).map Prod.snd)[ii]? = some (sh ii).2 := by
            rw [List.getElem?_map, hsh0 ii d hd]; rfl
          have hrange := fun s2row : Fin n → K =>
            (C44_ranges han (List.ofFn s2row) (by simp)).2 ii _ hcol
          obtain ⟨a, b, hab, -⟩ := hrange fun _ => 0
          refine ⟨(a, b), hab, fun l hl => ?_⟩
          obtain ⟨row, -, rfl⟩ := List.mem_map.1 hl
          obtain ⟨a', b', hab', -, -, -, s2, he, -⟩ := hrange row
          rw [hab] at hab'
          cases hab'
          exact ⟨s2, he⟩)
      refine ⟨S, { credible := r.2.1, prediction := some r.2.2, theta := r.1 }, hS, ?_⟩
      unfold generateIntervals
      dsimp only
      rw [show S.chain = R.chain.drop burnin from rfl, hlen, htc, ok_bind, if_neg hf]
      dsimp only [S]
      rw [show orRaise (some index) PyErr.attributeError = .ok index from rfl, ok_bind, hs2r, ok_bind]
      change (ciAndPiForDataSets sqrt exp S testchain _ index _ noise (levels true) 0 data R.theta
        >>= _) = _
      rw [hr]
      rfl

end

/-! ### C81: local parameters -/

section
variable {K : Type} [Field K] {N : ℕ}

theorem openLocalLoop_ok {nb : ℕ} : ∀ {specs : List (Bool × ℤ)} {ii : ℕ} {l r : List ℤ},
    openLocalLoop nb specs ii l = .ok r → r = l ∧ ((∃ s ∈ specs, s.1 = false ∧ s.2 ≠ 0) → nb = 0) := by
  intro specs
  induction specs with
  | nil => intro ii l r h; cases h; exact ⟨rfl, by simp⟩
  | cons s specs ih =>
    intro ii l r h
    unfold openLocalLoop at h
    split at h
    · rename_i hs
      cases ha : assignSlice l ii (ii + nb) ((List.range (nb + 1)).map fun k : ℕ => (k : ℤ)) with
      | error e => rw [ha] at h; cases h
      | ok l' =>
        rw [ha] at h
        obtain ⟨hr, -⟩ := ih h
        have hle : (pySlice l ii (ii + nb)).length ≤ nb := by
          unfold pySlice; rw [List.length_drop, List.length_take]; omega
        unfold assignSlice at ha
        rw [if_neg (by simp; omega)] at ha
        cases nb with
        | zero =>
          simp only [Nat.add_zero] at ha
          have h0 : (pySlice l ii ii).length = 0 := by simpa using hle
          rw [h0] at ha
          simp at ha
          refine ⟨by rw [hr, ← ha], fun _ => rfl⟩
        | succ nb =>
          exfalso
          rw [show nb + 1 + 1 = 1 + (1 + nb) by omega, List.range_add, List.range_add] at ha
          simp [List.range_succ] at ha
    · rename_i hs
      obtain ⟨hr, hx⟩ := ih h
      refine ⟨hr, ?_⟩
      rintro ⟨s', hs', h1, h2⟩
      rcases List.mem_cons.1 hs' with rfl | hm
      · exact absurd ⟨h1, h2⟩ hs
      · exact hx ⟨s', hm, h1, h2⟩

theorem applying_zero {loc : Fin N → ℤ} (h : ∀ k, loc k = 0) (ii : ℕ) (v : Vec K N) :
    Applying loc ii v = List.ofFn v := by
  unfold Applying
  rw [List.filter_eq_self.2 (by simp [h]), List.ofFn_eq_map]

/-- **C81, full statement:** the model function for a data set receives the parameters common to all
data sets and the local parameters of that data set.  **Proved here:** every run that gets past the
reading of the parameters stores 0 for every parameter, so the model function for every data set
receives the complete parameter vector, in order.  No local parameter is ever confined to its data
set; and if the marks were those of `scan_for_local_variables` the wrong ones would be passed, see
`C81_numbering_refuted`. -/
theorem C81_whole_vector_partial {specs : List (Bool × ℤ)} {nb : ℕ} {l : List ℤ}
    (h : openLocal specs nb = .ok l) :
    l = List.replicate specs.length 0 ∧
    ∀ (loc : Fin N → ℤ), (∀ k : Fin N, l[k.1]? = some (loc k)) → ∀ (ii : ℕ) (v : Vec K N),
      Applying loc ii v = List.ofFn v ∧ selectLocal loc ii v = List.ofFn v := by
  obtain ⟨hl, -⟩ := openLocalLoop_ok h
  refine ⟨hl, fun loc hloc ii v => ?_⟩
  have h0 : ∀ k, loc k = 0 := by
    intro k
    have := hloc k
    rw [hl, List.getElem?_replicate] at this
    split at this
    · simpa using this.symm
    · cases this
  exact ⟨applying_zero h0 ii v, by rw [selectLocal_eq, applying_zero h0 ii v]⟩

/-- **C81, refuted.** With the marks of `scan_for_local_variables` (1 for the first data set, …,
`nbatch` for the last), a parameter that is sampled and local has a copy for the last data set that
no data set receives: changing it changes no parameter vector passed to a model function.  The first
data set receives no local parameter at all, and no data set `ii` (counted from 0) receives the copies
meant for it (marked `ii + 1`). -/
theorem C81_numbering_refuted {nbatch : ℕ} (hn : 1 ≤ nbatch) {specs : List (Bool × ℤ)}
    (hs : ∃ s ∈ specs, s.1 = true ∧ s.2 ≠ 0) (loc : Fin N → ℤ)
    (hloc : List.ofFn loc = scanForLocal nbatch specs) :
    (∃ k : Fin N, loc k = nbatch ∧ ∀ ii < nbatch, ∀ (v : Vec K N) (x : K),
      selectLocal loc ii (Function.update v k x) = selectLocal loc ii v) ∧
    (∀ k : Fin N, loc k ≠ 0 → ∀ (v : Vec K N) (x : K),
      selectLocal loc 0 (Function.update v k x) = selectLocal loc 0 v) ∧
    ∀ (ii : ℕ) (k : Fin N), loc k = ii + 1 → ∀ (v : Vec K N) (x : K),
      selectLocal loc ii (Function.update v k x) = selectLocal loc ii v := by
  have hmem : ∀ specs : List (Bool × ℤ), (∃ s ∈ specs, s.1 = true ∧ s.2 ≠ 0) →
      (nbatch : ℤ) ∈ scanForLocal nbatch specs := by
    intro specs
    induction specs with
    | nil => rintro ⟨s, hs, -⟩; cases hs
    | cons a specs ih =>
      rintro ⟨s, hs, h1, h2⟩
      unfold scanForLocal
      rcases List.mem_cons.1 hs with rfl | hm
      · rw [if_pos h1, if_pos h2]
        refine List.mem_append_left _ (List.mem_map.2 ⟨nbatch, ?_, rfl⟩)
        rw [List.mem_range']
        exact ⟨nbatch - 1, by omega, by omega⟩
      · split
        · exact List.mem_append_right _ (ih ⟨s, hm, h1, h2⟩)
        · exact ih ⟨s, hm, h1, h2⟩
  have hskip : ∀ (ii : ℕ) (k : Fin N), loc k ≠ 0 → loc k ≠ ii → ∀ (v : Vec K N) (x : K),
      selectLocal loc ii (Function.update v k x) = selectLocal loc ii v := by
    intro ii k h0 h1 v x
    unfold selectLocal
    refine List.map_congr_left fun j hj => ?_
    rw [Function.update_of_ne]
    rintro rfl
    rw [List.mem_filter] at hj
    simp [h0, h1] at hj
  refine ⟨?_, ?_, ?_⟩
  · have := hmem specs hs
    rw [← hloc, List.mem_ofFn] at this
    obtain ⟨k, hk⟩ := this
    exact ⟨k, hk, fun ii hii => hskip ii k (by omega) (by omega)⟩
  · intro k hk
    exact hskip 0 k hk (by simpa using hk)
  · intro ii k hk
    exact hskip ii k (by omega) (by omega)

end

/-! ### Examples -/

namespace IntervalExample

/-- one parameter is sampled, the other fixed; six rows; the error variances have one column for
every column of the output of two data sets with one and two columns -/
def results : IntResults ℚ 2 1 where
  chain := [![9], ![1], ![2], ![3], ![4], ![5]]
  s2chain := some ⟨3, [![0, 0, 0], ![1, 4, 9], ![1, 4, 9], ![4, 1, 0], ![1, 1, 1], ![9, 4, 1]]⟩
  parind := fun _ => 1
  loc := fun _ => 0
  theta := ![10, 3]
  sstype := none

/-- a different model function for each data set -/
def modelfun : ModelFun ℚ ℚ := .several
  [fun d th => .ok (.vec [th.getD 0 0 + d * th.getD 1 0, th.getD 1 0]),
   fun d th => .ok (.mat 1 2 fun _ j => if j = 0 then th.getD 1 0 else d * th.getD 1 0)]

def shape (ii : ℕ) : ℕ × ℕ := if ii = 0 then (2, 1) else (1, 2)

theorem fixedShape : FixedShape modelfun [2, 5] shape := by
  intro ii d hd
  match ii, hd with
  | 0, _ => exact ⟨_, rfl, fun th => ⟨_, rfl, rfl⟩⟩
  | 1, _ => exact ⟨_, rfl, fun th => ⟨_, rfl, rfl⟩⟩
  | n + 2, hd => simp at hd

/-- the hypotheses of `C80_returns`, and with them those of `C80_credible` and `C80_prediction`, can
be met: two data sets with different model functions, burn-in 1, three random samples -/
example (sqrt exp : ℚ → ℚ) (noise : ℕ → ℕ → ℕ → ℕ → ℚ) : Function.Injective results.parind ∧
    ∃ S out, setupIntervals results [2, 5] modelfun 1 = .ok S ∧
      generateIntervals sqrt exp S none (some 3) (.str "on") [0, 1 / 2, 9 / 10] noise = .ok out := by
  refine ⟨fun _ _ _ => Subsingleton.elim _ _, C80_returns fixedShape (by decide) ?_ (by decide) ?_ ?_
    _ _⟩
  · intro n s2 h
    cases h
    exact ⟨rfl, .inr (.inl (by decide))⟩
  · intro m hm; cases hm; exact ⟨by decide, by decide⟩
  · intro u hu
    simp only [List.mem_cons, List.not_mem_nil, or_false] at hu
    rcases hu with h | h | h <;> subst h <;> norm_num

/-- the hypotheses of `C80_zero_variance` can be met (only zeros as error variances) -/
example (noise : ℕ → ℕ → ℕ → ℕ → ℚ) : ∃ (R : IntResults ℚ 2 1) (S : _) (out : _) (pred : _),
    R.s2chain = some ⟨1, List.replicate 6 fun _ => 0⟩ ∧ R.sstype.getD 0 = 0 ∧
    setupIntervals R [2, 5] modelfun 1 = .ok S ∧
    generateIntervals id id S none none (.bool true) [] noise = .ok out ∧
    out.prediction = some pred := by
  obtain ⟨S, out, h1, h2⟩ := C80_returns (sqrt := (id : ℚ → ℚ)) (exp := id)
    (R := { results with s2chain := some ⟨1, List.replicate 6 fun _ => 0⟩ }) (burnin := 1)
    (sstype := none) (nsample := none) (draws := []) fixedShape (by decide)
    (by intro n s2 h; cases h; exact ⟨rfl, .inl rfl⟩) (by decide) (by intro m hm; cases hm)
    (by simp) (.bool true) noise
  have hp := (C80_prediction (by intro _ _ _; exact Subsingleton.elim _ _) h1 h2).1.2
    ⟨rfl, by simp, by simp⟩
  obtain ⟨pred, hp⟩ := Option.isSome_iff_exists.1 hp
  exact ⟨_, S, out, pred, rfl, rfl, h1, h2, hp⟩

/-- the hypotheses of `C80_nonnegative` can be met (square-root errors) -/
example (noise : ℕ → ℕ → ℕ → ℕ → ℚ) : ∃ (R : IntResults ℚ 2 1) (S : _) (out : _) (pred : _),
    R.sstype = some 1 ∧ setupIntervals R [2, 5] modelfun 0 = .ok S ∧
    generateIntervals id (fun _ => 1) S none none (.bool true) [] noise = .ok out ∧
    out.prediction = some pred := by
  obtain ⟨S, out, h1, h2⟩ := C80_returns (sqrt := (id : ℚ → ℚ)) (exp := fun _ => 1)
    (R := { results with sstype := some 1 }) (burnin := 0)
    (sstype := none) (nsample := none) (draws := []) fixedShape (by decide)
    (by intro n s2 h; cases h; exact ⟨rfl, .inr (.inl (by decide))⟩) (by decide)
    (by intro m hm; cases hm) (by simp) (.bool true) noise
  have hp := (C80_prediction (by intro _ _ _; exact Subsingleton.elim _ _) h1 h2).1.2
    ⟨rfl, by simp, by simp⟩
  obtain ⟨pred, hp⟩ := Option.isSome_iff_exists.1 hp
  exact ⟨_, S, out, pred, rfl, h1, h2, hp⟩

/-- the hypothesis of `C80_ordered` can be met: two members, one row -/
example : QuantilesOf (levels true : List ℚ) [0, 1] 1 (fun _ idx x => x 0 = (idx : ℚ))
    [[25 / 1000], [1 / 2], [975 / 1000]] := by
  refine ⟨[fun _ => 0, fun _ => 1], [fun _ => 25 / 1000, fun _ => 1 / 2, fun _ => 975 / 1000], rfl,
    ?_, ?_, ?_⟩
  · intro kk idx h
    match kk, h with
    | 0, h => cases h; exact ⟨_, rfl, by norm_num⟩
    | 1, h => cases h; exact ⟨_, rfl, by norm_num⟩
    | n + 2, h => simp at h
  · decide +kernel
  · rfl

/-- local parameters: three parameters, one of them local but not sampled, a single batch; and two
sampled parameters, one of them local, with two batches and the numbering of
`scan_for_local_variables` -/
example : openLocal [(true, 0), (false, 1), (true, 3)] 0 = .ok [0, 0, 0] ∧
    openLocal [(true, 0), (false, 1)] 1 = .error .valueError ∧
    List.ofFn ![(0 : ℤ), 1, 2] = scanForLocal 2 [(true, 0), (true, 1)] ∧
    selectLocal ![(0 : ℤ), 1, 2] 1 ![(7 : ℚ), 8, 9] = [7, 8] := by decide +kernel

end IntervalExample

end Verif
