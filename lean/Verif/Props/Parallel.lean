import Verif.Model.Parallel
import Verif.Lemmas.XR
import Verif.Lemmas.Basic
import Verif.Lemmas.Run

/-! # Parallel chains: initial values (C35, C37) and random numbers (C38) -/

set_option linter.unusedSectionVars false

namespace Verif
variable {F σ : Type} [PyFloat F] {N m : ℕ} {flags : Fin N → Bool}

theorem setupParallel_ok {o : Obj F flags m} {user : Option (UserValues F)} {u : List (Vec F N)}
    {restart : ℕ → Option (Saved F)} {ps : List (ParChain F flags m)}
    (h : setupParallel o user u restart = .ok ps) :
    ∃ init, checkInitialValues user u (fun k => featureLow (o.specs k))
        (fun k => featureUpp (o.specs k)) = .ok init ∧ ps.length = init.length ∧
      ∀ i c, ps[i]? = some c → ∃ row, init[i]? = some row ∧
        (∀ k, (c.obj.specs k).theta0 = row k) ∧ c.dir = chainDir i ∧
        (∀ k, { c.obj.specs k with theta0 := (o.specs k).theta0 } = o.specs k) := by
  unfold setupParallel at h
  obtain ⟨init, h1, h⟩ := bind_ok.1 h
  cases h
  refine ⟨init, h1, by simp, fun i c hc => ?_⟩
  rw [List.getElem?_mapIdx] at hc
  cases hr : init[i]? with
  | none => rw [hr] at hc; cases hc
  | some row =>
    rw [hr] at hc
    cases hc
    exact ⟨row, rfl, fun _ => rfl, rfl, fun _ => rfl⟩

/-! ### C35 -/

theorem XR.le_fin {x : XR} {t : ℝ} (h : PyFloat.le x (.fin t) = true) :
    x = .ninf ∨ ∃ a, x = .fin a ∧ a ≤ t := by
  cases x with
  | nan => cases h
  | ninf => exact Or.inl rfl
  | pinf => cases h
  | fin a => rw [XR.fin_le] at h; exact Or.inr ⟨a, rfl, of_decide_eq_true h⟩

theorem XR.fin_le' {x : XR} {t : ℝ} (h : PyFloat.le (XR.fin t) x = true) :
    x = .pinf ∨ ∃ a, x = .fin a ∧ t ≤ a := by
  cases x with
  | nan => cases h
  | ninf => cases h
  | pinf => exact Or.inl rfl
  | fin a => rw [XR.fin_le] at h; exact Or.inr ⟨a, rfl, of_decide_eq_true h⟩

theorem XR.pyAbs_fin (t : ℝ) : pyAbs (XR.fin t) = XR.fin |t| := by
  unfold pyAbs
  rw [XR.lit_eq, XR.fin_lt]
  by_cases h : t < 0
  · simp [h, abs_of_neg h]
  · simp [h, abs_of_nonneg (not_lt.1 h)]

theorem featureLow_fin {p : ParamSpec XR} {t : ℝ} (ht : p.theta0 = .fin t)
    (h : PyFloat.le p.minimum p.theta0 = true) :
    ∃ a, featureLow p = .fin a ∧ a ≤ t ∧ PyFloat.le p.minimum (XR.fin a) = true := by
  rw [ht] at h
  unfold featureLow
  rcases XR.le_fin h with hm | ⟨a, hm, hat⟩
  · refine ⟨t - 100 * |t|, ?_, by have := abs_nonneg t; linarith, by rw [hm]; rfl⟩
    have : PyFloat.beq p.minimum (-PyFloat.inf) = true := by rw [hm]; rfl
    rw [if_pos this, ht, XR.pyAbs_fin, XR.lit_eq, XR.fin_mul, XR.fin_sub]
    norm_num
  · refine ⟨a, ?_, hat, by rw [hm]; simp⟩
    have : PyFloat.beq p.minimum (-PyFloat.inf) = false := by rw [hm]; rfl
    rw [this, hm]; rfl

theorem featureUpp_fin {p : ParamSpec XR} {t : ℝ} (ht : p.theta0 = .fin t)
    (h : PyFloat.le p.theta0 p.maximum = true) :
    ∃ b, featureUpp p = .fin b ∧ t ≤ b ∧ PyFloat.le (XR.fin b) p.maximum = true := by
  rw [ht] at h
  unfold featureUpp
  rcases XR.fin_le' h with hm | ⟨a, hm, hat⟩
  · refine ⟨t + 100 * |t|, ?_, by have := abs_nonneg t; linarith, by rw [hm]; rfl⟩
    have : PyFloat.beq p.maximum PyFloat.inf = true := by rw [hm]; rfl
    rw [if_pos this, ht, XR.pyAbs_fin, XR.lit_eq, XR.fin_mul, XR.fin_add]
    norm_num
  · refine ⟨a, ?_, hat, by rw [hm]; simp⟩
    have : PyFloat.beq p.maximum PyFloat.inf = false := by rw [hm]; rfl
    rw [this, hm]; rfl

theorem XR.le_trans_fin {x : XR} {a v : ℝ} (h : PyFloat.le x (XR.fin a) = true) (hv : a ≤ v) :
    PyFloat.le x (XR.fin v) = true := by
  rcases XR.le_fin h with rfl | ⟨b, rfl, hb⟩
  · rfl
  · simp; linarith

theorem XR.fin_trans_le {x : XR} {a v : ℝ} (h : PyFloat.le (XR.fin a) x = true) (hv : v ≤ a) :
    PyFloat.le (XR.fin v) x = true := by
  rcases XR.fin_le' h with rfl | ⟨b, rfl, hb⟩
  · rfl
  · simp; linarith

/-- **C35 (generated values).** In exact arithmetic: whatever the limits, finite or not, if the
user's own initial values are finite and within them, then for all uniform numbers in `[0, 1)` the
parallel setup succeeds with as many chains as rows of numbers were drawn, and the initial value of
every parameter in every chain is a finite number within the user's limits. -/
theorem C35_generated {flags : Fin N → Bool} {o : Obj XR flags m}
    (hθ : ∀ k, (∃ t, (o.specs k).theta0 = .fin t) ∧
      PyFloat.le (o.specs k).minimum (o.specs k).theta0 = true ∧
      PyFloat.le (o.specs k).theta0 (o.specs k).maximum = true)
    {u : List (Vec XR N)} (hu : ∀ r ∈ u, ∀ k, ∃ x, r k = .fin x ∧ 0 ≤ x ∧ x < 1)
    (restart : ℕ → Option (Saved XR)) :
    ∃ ps, setupParallel o none u restart = .ok ps ∧ ps.length = u.length ∧
      ∀ c ∈ ps, ∀ k, (∃ v, (c.obj.specs k).theta0 = .fin v) ∧
        PyFloat.le (o.specs k).minimum (c.obj.specs k).theta0 = true ∧
        PyFloat.le (c.obj.specs k).theta0 (o.specs k).maximum = true := by
  have hex : ∃ ps, setupParallel o none u restart = .ok ps := ⟨_, rfl⟩
  obtain ⟨ps, h⟩ := hex
  obtain ⟨init, h1, h2, h3⟩ := setupParallel_ok h
  cases h1
  refine ⟨ps, h, by rw [h2]; simp [generateInitialValues], fun c hc k => ?_⟩
  obtain ⟨i, hi⟩ := List.mem_iff_getElem?.1 hc
  obtain ⟨row, hr, hv, -, -⟩ := h3 i c hi
  unfold generateInitialValues at hr
  rw [List.getElem?_map] at hr
  cases hui : u[i]? with
  | none => rw [hui] at hr; cases hr
  | some r =>
    rw [hui] at hr
    simp only [Option.map_some, Option.some.injEq] at hr
    obtain ⟨x, hx, hx0, hx1⟩ := hu r (List.mem_iff_getElem?.2 ⟨i, hui⟩) k
    obtain ⟨⟨t, ht⟩, hl, hm⟩ := hθ k
    obtain ⟨a, ha, hat, ha'⟩ := featureLow_fin ht hl
    obtain ⟨b, hb, hbt, hb'⟩ := featureUpp_fin ht hm
    have hrow : row k = .fin (a + (b - a) * x) := by
      rw [← hr]; dsimp only
      rw [ha, hb, hx, XR.fin_sub, XR.fin_mul, XR.fin_add]
    rw [hv k, hrow]
    refine ⟨⟨_, rfl⟩, XR.le_trans_fin ha' ?_, XR.fin_trans_le hb' ?_⟩
    · nlinarith
    · nlinarith

/-- **C35 (user's values, partial).** If none of the user's limits is infinite, then initial values
the user supplies (at least one column per parameter) are accepted exactly when none of them is
below its lower or above its upper limit; they are then used as they are, one chain per row.
Missing from C35: infinite limits; see `C35_infinite_refuted`. -/
theorem C35_user_partial {o : Obj F flags m}
    (hlim : ∀ k, PyFloat.beq (o.specs k).minimum (-PyFloat.inf) = false ∧
      PyFloat.beq (o.specs k).maximum PyFloat.inf = false)
    (v : UserValues F) (hk : N ≤ v.k) (u : List (Vec F N)) (restart : ℕ → Option (Saved F)) :
    ((∃ ps, setupParallel o (some v) u restart = .ok ps) ↔
      ∀ r ∈ v.rows, ∀ k : Fin N, PyFloat.lt (r ⟨k, by omega⟩) (o.specs k).minimum = false ∧
        PyFloat.lt (o.specs k).maximum (r ⟨k, by omega⟩) = false) ∧
    ∀ ps, setupParallel o (some v) u restart = .ok ps → ps.length = v.rows.length ∧
      ∀ (i : ℕ) (c : ParChain F flags m), ps[i]? = some c → ∃ r : Vec F v.k, v.rows[i]? = some r ∧
        ∀ k : Fin N, (c.obj.specs k).theta0 = r ⟨k, by omega⟩ := by
  have hlow : ∀ k, featureLow (o.specs k) = (o.specs k).minimum := fun k => by
    unfold featureLow; rw [(hlim k).1]; rfl
  have hupp : ∀ k, featureUpp (o.specs k) = (o.specs k).maximum := fun k => by
    unfold featureUpp; rw [(hlim k).2]; rfl
  have hchk : checkInitialValues (some v) u (fun k => featureLow (o.specs k))
      (fun k => featureUpp (o.specs k)) =
      if (v.rows.map fun r (i : Fin N) => r ⟨i, by omega⟩).any fun r => isOutside r
        (fun k => (o.specs k).minimum) (fun k => (o.specs k).maximum) then
        .error (.sysExit msgParallel) else .ok (v.rows.map fun r (i : Fin N) => r ⟨i, by omega⟩) := by
    simp only [hlow, hupp]
    unfold checkInitialValues checkUsersInitialValues
    dsimp only
    rw [dif_pos hk]
  have hany : ((v.rows.map fun r (i : Fin N) => r ⟨i, by omega⟩).any fun r => isOutside r
        (fun k => (o.specs k).minimum) (fun k => (o.specs k).maximum)) = false ↔
      ∀ r ∈ v.rows, ∀ k : Fin N, PyFloat.lt (r ⟨k, by omega⟩) (o.specs k).minimum = false ∧
        PyFloat.lt (o.specs k).maximum (r ⟨k, by omega⟩) = false := by
    rw [List.any_eq_false]
    simp only [List.mem_map, forall_exists_index, and_imp, forall_apply_eq_imp_iff₂,
      Bool.not_eq_true, isOutside_eq_false]
  constructor
  · rw [← hany]
    constructor
    · rintro ⟨ps, h⟩
      obtain ⟨init, h1, -, -⟩ := setupParallel_ok h
      rw [hchk] at h1
      split at h1
      · cases h1
      · rename_i hne; simpa using hne
    · intro hne
      rw [hne] at hchk
      simp only [Bool.false_eq_true, if_false] at hchk
      unfold setupParallel getParameterFeatures
      dsimp only
      rw [hchk]
      exact ⟨_, rfl⟩
  · intro ps h
    obtain ⟨init, h1, h2, h3⟩ := setupParallel_ok h
    rw [hchk] at h1
    split at h1
    · cases h1
    · cases h1
      refine ⟨by rw [h2]; simp, fun i c hc => ?_⟩
      obtain ⟨row, hr, hv, -, -⟩ := h3 i c hc
      rw [List.getElem?_map] at hr
      cases hui : v.rows[i]? with
      | none => rw [hui] at hr; cases hr
      | some r =>
        rw [hui] at hr
        simp only [Option.map_some, Option.some.injEq] at hr
        exact ⟨r, rfl, fun k => by rw [hv k, ← hr]⟩

/-- **C35 is false for infinite limits.** In exact arithmetic: if the lower limit of a parameter is
`-inf` and its own initial value is `t`, then supplied initial values are refused as soon as one
value of that parameter is below `t - 100 |t|`, although no value is below `-inf`. -/
theorem C35_infinite_refuted {flags : Fin N → Bool} {o : Obj XR flags m} {k : Fin N} {t x : ℝ}
    (ht : (o.specs k).theta0 = .fin t) (hmin : (o.specs k).minimum = .ninf)
    (v : UserValues XR) (hk : N ≤ v.k) {r : Vec XR v.k} (hr : r ∈ v.rows)
    (hx : r ⟨k, by omega⟩ = .fin x) (hlt : x < t - 100 * |t|)
    (u : List (Vec XR N)) (restart : ℕ → Option (Saved XR)) :
    (∃ msg, setupParallel o (some v) u restart = .error (.sysExit msg)) ∧
      PyFloat.le (o.specs k).minimum (r ⟨k, by omega⟩) = true := by
  refine ⟨⟨msgParallel, ?_⟩, by rw [hmin, hx]; rfl⟩
  obtain ⟨a, ha, -, -⟩ := featureLow_fin ht (by rw [hmin, ht]; rfl)
  have hae : a = t - 100 * |t| := by
    unfold featureLow at ha
    have : PyFloat.beq (o.specs k).minimum (-PyFloat.inf) = true := by rw [hmin]; rfl
    rw [if_pos this, ht, XR.pyAbs_fin, XR.lit_eq, XR.fin_mul, XR.fin_sub, XR.fin_inj] at ha
    rw [← ha]; norm_num
  unfold setupParallel getParameterFeatures checkInitialValues checkUsersInitialValues
  dsimp only
  rw [dif_pos hk, if_pos]
  · rfl
  · rw [List.any_eq_true]
    refine ⟨_, List.mem_map.2 ⟨r, hr, rfl⟩, ?_⟩
    by_contra hc
    rw [Bool.not_eq_true, isOutside_eq_false] at hc
    have := (hc k).1
    rw [hx, ha, XR.fin_lt, decide_eq_false_iff_not, hae] at this
    exact this hlt

/-! ### C37 -/

/-- **C37 (partial).** A parameter whose limits are both equal to its value has that value in every
parallel chain.  Missing from C37: all other parameters that are not sampled; see `C37_refuted`. -/
theorem C37_degenerate_partial {flags : Fin N → Bool} {o : Obj XR flags m} {k : Fin N} {t : ℝ}
    (ht : (o.specs k).theta0 = .fin t) (hmin : (o.specs k).minimum = .fin t)
    (hmax : (o.specs k).maximum = .fin t)
    {u : List (Vec XR N)} (hu : ∀ r ∈ u, ∃ x, r k = .fin x)
    {restart : ℕ → Option (Saved XR)} {ps : List (ParChain XR flags m)}
    (h : setupParallel o none u restart = .ok ps) :
    ∀ c ∈ ps, (c.obj.specs k).theta0 = (o.specs k).theta0 := by
  obtain ⟨init, h1, h2, h3⟩ := setupParallel_ok h
  cases h1
  intro c hc
  obtain ⟨i, hi⟩ := List.mem_iff_getElem?.1 hc
  obtain ⟨row, hr, hv, -, -⟩ := h3 i c hi
  unfold generateInitialValues at hr
  rw [List.getElem?_map] at hr
  cases hui : u[i]? with
  | none => rw [hui] at hr; cases hr
  | some r =>
    rw [hui] at hr
    simp only [Option.map_some, Option.some.injEq] at hr
    obtain ⟨x, hx⟩ := hu r (List.mem_iff_getElem?.2 ⟨i, hui⟩)
    have e1 : featureLow (o.specs k) = .fin t := by
      unfold featureLow
      have : PyFloat.beq (o.specs k).minimum (-PyFloat.inf) = false := by rw [hmin]; rfl
      rw [this, hmin]; rfl
    have e2 : featureUpp (o.specs k) = .fin t := by
      unfold featureUpp
      have : PyFloat.beq (o.specs k).maximum PyFloat.inf = false := by rw [hmax]; rfl
      rw [this, hmax]; rfl
    rw [hv k, ← hr]
    dsimp only
    rw [e1, e2, hx, ht, XR.fin_sub, XR.fin_mul, XR.fin_add]
    simp

/-- **C37 is false.** Take any parameter (sampled or not) with finite limits `a < b`.  Its value in a
parallel chain is `a + (b - a) x` for the uniform number `x` drawn for it: chains with different
numbers have different values, and no chain has the user's value `t` unless `x` happens to be
`(t - a) / (b - a)`. -/
theorem C37_refuted {flags : Fin N → Bool} {o : Obj XR flags m} {k : Fin N} {t a b : ℝ}
    (_hfixed : flags k = false) (ht : (o.specs k).theta0 = .fin t)
    (hmin : (o.specs k).minimum = .fin a) (hmax : (o.specs k).maximum = .fin b) (hab : a < b)
    {u : List (Vec XR N)} {restart : ℕ → Option (Saved XR)} {ps : List (ParChain XR flags m)}
    (h : setupParallel o none u restart = .ok ps) :
    (∀ (i : ℕ) (x : ℝ), (u[i]?.map fun r => r k) = some (.fin x) → x ≠ (t - a) / (b - a) →
      ∀ c, ps[i]? = some c → (c.obj.specs k).theta0 ≠ (o.specs k).theta0) ∧
    (∀ (i j : ℕ) (x y : ℝ), (u[i]?.map fun r => r k) = some (.fin x) →
      (u[j]?.map fun r => r k) = some (.fin y) → x ≠ y →
      ∀ c d, ps[i]? = some c → ps[j]? = some d →
        (c.obj.specs k).theta0 ≠ (d.obj.specs k).theta0) := by
  obtain ⟨init, h1, h2, h3⟩ := setupParallel_ok h
  cases h1
  have e1 : featureLow (o.specs k) = .fin a := by
    unfold featureLow
    have : PyFloat.beq (o.specs k).minimum (-PyFloat.inf) = false := by rw [hmin]; rfl
    rw [this, hmin]; rfl
  have e2 : featureUpp (o.specs k) = .fin b := by
    unfold featureUpp
    have : PyFloat.beq (o.specs k).maximum PyFloat.inf = false := by rw [hmax]; rfl
    rw [this, hmax]; rfl
  have val : ∀ (i : ℕ) (x : ℝ), (u[i]?.map fun r => r k) = some (.fin x) →
      ∀ c, ps[i]? = some c → (c.obj.specs k).theta0 = .fin (a + (b - a) * x) := by
    intro i x hx c hc
    obtain ⟨row, hr, hv, -, -⟩ := h3 i c hc
    unfold generateInitialValues at hr
    rw [List.getElem?_map] at hr
    cases hui : u[i]? with
    | none => rw [hui] at hx; cases hx
    | some r =>
      rw [hui] at hr hx
      simp only [Option.map_some, Option.some.injEq] at hr hx
      rw [hv k, ← hr]
      dsimp only
      rw [e1, e2, hx, XR.fin_sub, XR.fin_mul, XR.fin_add]
  constructor
  · intro i x hx hne c hc
    rw [val i x hx c hc, ht]
    intro he
    rw [XR.fin_inj] at he
    apply hne
    rw [eq_div_iff (by linarith : b - a ≠ 0)]
    linarith
  · intro i j x y hx hy hne c d hc hd
    rw [val i x hx c hc, val j y hy d hd]
    intro he
    rw [XR.fin_inj] at he
    apply hne
    have : (b - a) * (x - y) = 0 := by linarith
    rcases mul_eq_zero.1 this with h | h <;> linarith

/-! ### C38 -/

/-- **C38 is false for more than one worker.** Whatever a task does and however the tasks are
distributed: the first tasks of any two workers start from the same state of the random number
generator.  So they draw the same numbers, and equal tasks give equal results. -/
theorem C38_workers_refuted {W τ ρ : Type} [DecidableEq W] (run : τ → σ → ρ × σ) (parent : σ)
    (sched : List (W × τ)) (i j : ℕ) (ri rj : TaskRecord W σ ρ)
    (hi : (poolRun run (fun _ => parent) sched)[i]? = some ri)
    (hj : (poolRun run (fun _ => parent) sched)[j]? = some rj)
    (fi : ∀ k < i, (sched[k]?.map Prod.fst) ≠ some ri.worker)
    (fj : ∀ k < j, (sched[k]?.map Prod.fst) ≠ some rj.worker) :
    ri.before = parent ∧ rj.before = parent ∧
    ((sched[i]?.map Prod.snd) = (sched[j]?.map Prod.snd) → ri.result = rj.result) := by
  have key : ∀ (sched : List (W × τ)) (st : W → σ) (i : ℕ) (r : TaskRecord W σ ρ),
      (poolRun run st sched)[i]? = some r →
      (∀ k < i, (sched[k]?.map Prod.fst) ≠ some r.worker) →
      r.before = st r.worker ∧ ∃ t, sched[i]? = some (r.worker, t) ∧
        r.result = (run t r.before).1 := by
    intro sched
    induction sched with
    | nil => intro st i r h; simp [poolRun] at h
    | cons wt rest ih =>
      obtain ⟨w, t⟩ := wt
      intro st i r h hf
      cases i with
      | zero =>
        simp only [poolRun, List.getElem?_cons_zero, Option.some.injEq] at h
        subst h
        exact ⟨rfl, t, rfl, rfl⟩
      | succ i =>
        simp only [poolRun, List.getElem?_cons_succ] at h
        have hw : w ≠ r.worker := by
          have := hf 0 (by omega)
          simpa using this
        obtain ⟨h1, t', h2, h3⟩ := ih _ i r h (fun k hk => by
          have := hf (k + 1) (by omega)
          simpa using this)
        refine ⟨?_, t', by simpa using h2, h3⟩
        rw [h1, Function.update_of_ne (Ne.symm hw)]
  obtain ⟨a1, t1, a2, a3⟩ := key sched _ i ri hi fi
  obtain ⟨b1, t2, b2, b3⟩ := key sched _ j rj hj fj
  refine ⟨a1, b1, fun he => ?_⟩
  rw [a2, b2] at he
  simp only [Option.map_some, Option.some.injEq] at he
  rw [a3, b3, a1, b1, he]

/-- **C38 (partial).** Tasks of one worker use consecutive pieces of its random stream: each starts
where the worker's previous task stopped.  With a single worker this covers all chains.
Missing from C38: tasks of different workers, see `C38_workers_refuted`. -/
theorem C38_one_worker_partial {W τ ρ : Type} [DecidableEq W] (run : τ → σ → ρ × σ) (st : W → σ)
    (sched : List (W × τ)) (i j : ℕ) (ri rj : TaskRecord W σ ρ) (hij : i < j)
    (hi : (poolRun run st sched)[i]? = some ri) (hj : (poolRun run st sched)[j]? = some rj)
    (hw : ri.worker = rj.worker)
    (hbetween : ∀ k, i < k → k < j → (sched[k]?.map Prod.fst) ≠ some ri.worker) :
    rj.before = ri.after := by
  have key : ∀ (sched : List (W × τ)) (st : W → σ) (i : ℕ) (r : TaskRecord W σ ρ),
      (poolRun run st sched)[i]? = some r →
      (∀ k < i, (sched[k]?.map Prod.fst) ≠ some r.worker) → r.before = st r.worker := by
    intro sched
    induction sched with
    | nil => intro st i r h; simp [poolRun] at h
    | cons wt rest ih =>
      obtain ⟨w, t⟩ := wt
      intro st i r h hf
      cases i with
      | zero =>
        simp only [poolRun, List.getElem?_cons_zero, Option.some.injEq] at h
        subst h; rfl
      | succ i =>
        simp only [poolRun, List.getElem?_cons_succ] at h
        have hw : w ≠ r.worker := by simpa using hf 0 (by omega)
        rw [ih _ i r h (fun k hk => by simpa using hf (k + 1) (by omega)),
          Function.update_of_ne (Ne.symm hw)]
  induction sched generalizing st i j with
  | nil => simp [poolRun] at hi
  | cons wt rest ih =>
    obtain ⟨w, t⟩ := wt
    obtain ⟨j, rfl⟩ : ∃ j', j = j' + 1 := ⟨j - 1, by omega⟩
    simp only [poolRun, List.getElem?_cons_succ] at hj
    cases i with
    | zero =>
      simp only [poolRun, List.getElem?_cons_zero, Option.some.injEq] at hi
      have := key rest _ j rj hj (fun k hk => by
        rw [← hw]; simpa using hbetween (k + 1) (by omega) (by omega))
      rw [this, ← hw, ← hi]
      simp
    | succ i =>
      simp only [poolRun, List.getElem?_cons_succ] at hi
      exact ih _ i j (by omega) hi hj (fun k h1 h2 => by
        simpa using hbetween (k + 1) (by omega) (by omega))

/-! ### Examples -/

namespace ParToy

/-- two parameters, the second is not sampled -/
def flags2 : Fin 2 → Bool := ![true, false]

/-- first parameter: value 1 without limits; second: value 3 between 2 and 6 -/
noncomputable def obj : Obj XR ParToy.flags2 1 :=
  newObj ![⟨"a", .fin 1, .ninf, .pinf, .nan, .pinf, true, 0, true⟩,
      ⟨"b", .fin 3, .fin 2, .fin 6, .nan, .pinf, false, 0, true⟩]
    (defineSimulationOptions {})
    ⟨.fin 10, [], .fin 0, .fin 0, .fin 0, none, none, none⟩
    (defineModelSettings none none none none none) {}

/-- uniform numbers for two chains -/
noncomputable def draws : List (Vec XR 2) := [fun _ => .fin (1 / 2), fun _ => .fin (1 / 8)]

example : (∀ k, (∃ t, (obj.specs k).theta0 = .fin t) ∧
      PyFloat.le (obj.specs k).minimum (obj.specs k).theta0 = true ∧
      PyFloat.le (obj.specs k).theta0 (obj.specs k).maximum = true) ∧
    (∀ r ∈ draws, ∀ k, ∃ x, r k = .fin x ∧ 0 ≤ x ∧ x < 1) ∧ draws.length = 2 := by
  refine ⟨fun k => ?_, fun r hr k => ?_, rfl⟩
  · fin_cases k
    · exact ⟨⟨1, rfl⟩, rfl, rfl⟩
    · refine ⟨⟨3, rfl⟩, ?_, ?_⟩
      · change PyFloat.le (XR.fin 2) (XR.fin 3) = true
        rw [XR.fin_le]; norm_num
      · change PyFloat.le (XR.fin 3) (XR.fin 6) = true
        rw [XR.fin_le]; norm_num
  · simp only [draws, List.mem_cons, List.not_mem_nil, or_false] at hr
    rcases hr with rfl | rfl
    · exact ⟨1 / 2, rfl, by norm_num, by norm_num⟩
    · exact ⟨1 / 8, rfl, by norm_num, by norm_num⟩

/-- the parameter "b", which is not sampled, has different values in the two chains -/
example : ∃ ps, setupParallel obj none draws (fun _ => none) = .ok ps ∧
    ∃ c d, ps[0]? = some c ∧ ps[1]? = some d ∧
      (c.obj.specs 1).theta0 ≠ (obj.specs 1).theta0 ∧
      (c.obj.specs 1).theta0 ≠ (d.obj.specs 1).theta0 := by
  refine ⟨_, rfl, _, _, rfl, rfl, ?_⟩
  have h := C37_refuted (o := obj) (u := draws) (restart := fun _ => none) (k := 1) (t := 3)
    (a := 2) (b := 6) rfl rfl rfl rfl (by norm_num) rfl
  exact ⟨h.1 0 (1 / 2) rfl (by norm_num) _ rfl,
    h.2 0 1 (1 / 2) (1 / 8) rfl rfl (by norm_num) _ _ rfl rfl⟩

/-- initial values `-1000` and `3`: within the limits, but refused -/
example : ∃ msg, setupParallel obj (some ⟨2, [![.fin (-1000), .fin 3]]⟩) [] (fun _ => none) =
    .error (.sysExit msg) :=
  (C35_infinite_refuted (k := 0) (t := 1) (x := -1000) (o := obj) rfl rfl
    ⟨2, [![.fin (-1000), .fin 3]]⟩ le_rfl List.mem_cons_self rfl (by norm_num) [] _).1

/-- the same problem with finite limits, used for `C35_user_partial` -/
noncomputable def objF : Obj XR ParToy.flags2 1 :=
  { obj with specs := ![⟨"a", .fin 1, .fin 0, .fin 2, .nan, .pinf, true, 0, true⟩,
      ⟨"b", .fin 3, .fin 3, .fin 3, .nan, .pinf, false, 0, true⟩] }

example : (∀ k, PyFloat.beq (objF.specs k).minimum (-PyFloat.inf) = false ∧
      PyFloat.beq (objF.specs k).maximum PyFloat.inf = false) ∧
    (∃ ps, setupParallel objF (some ⟨2, [![.fin 1, .fin 3], ![.fin 2, .fin 3]]⟩) [] (fun _ => none)
      = .ok ps) := by
  have hl : ∀ k, PyFloat.beq (objF.specs k).minimum (-PyFloat.inf) = false ∧
      PyFloat.beq (objF.specs k).maximum PyFloat.inf = false := by
    intro k; fin_cases k <;> exact ⟨rfl, rfl⟩
  refine ⟨hl, (C35_user_partial hl _ le_rfl _ _).1.2 ?_⟩
  intro r hr k
  simp only [List.mem_cons, List.not_mem_nil, or_false] at hr
  rcases hr with rfl | rfl <;> fin_cases k <;>
    constructor <;> change decide (_ < _) = false <;> norm_num

/-- for `C37_degenerate_partial`: parameter "b" of `objF` -/
example : (objF.specs 1).theta0 = .fin 3 ∧ (objF.specs 1).minimum = .fin 3 ∧
    (objF.specs 1).maximum = .fin 3 ∧ (∀ r ∈ draws, ∃ x, r 1 = .fin x) ∧
    ∃ ps, setupParallel objF none draws (fun _ => none) = .ok ps := by
  refine ⟨rfl, rfl, rfl, fun r hr => ?_, _, rfl⟩
  simp only [draws, List.mem_cons, List.not_mem_nil, or_false] at hr
  rcases hr with rfl | rfl <;> exact ⟨_, rfl⟩

/-- three tasks on two workers; a task draws two numbers of a counter-like generator -/
def sched : List (Bool × ℕ) := [(false, 0), (true, 1), (false, 2)]

example : (poolRun (fun (_ : ℕ) (s : ℕ) => ([s, s + 1], s + 2)) (fun _ => 5) sched).map
    (fun r => (r.worker, r.before, r.result, r.after)) =
    [(false, 5, [5, 6], 7), (true, 5, [5, 6], 7), (false, 7, [7, 8], 9)] := by decide

end ParToy

end Verif
