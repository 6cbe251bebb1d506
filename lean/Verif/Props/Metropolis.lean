import Verif.Lemmas.AlphaXR
import Verif.Lemmas.Step
import Mathlib.MeasureTheory.Measure.Lebesgue.Basic

/-! # C07, C08: the Metropolis step -/

namespace Verif
set_option linter.unusedSectionVars false
open XR

section general
variable {F σ : Type} [PyFloat F] {N n m : ℕ}

/-- **C07**, generator and evaluation part, for every float type.  The proposal is the current
point plus the normal draw times the factor.  It is `outbound` exactly when some coordinate
violates a limit; then it is rejected and the user's function is not called and no uniform number
is drawn.  Otherwise the user's function is called on it and exactly one uniform number is
drawn. -/
theorem C07_proposal {P : Problem F N n m} {G : Rng σ F} {old : ParamSet F n m} {R : Mat F n}
    {w : World F σ N} {out : StepOut F σ N n m} {z : Vec F n}
    (h : runMetropolisStep P G old R w = .ok (out, z)) :
    z = (G.randn n w.rng).1 ∧
    (∀ j, out.newSet.theta j = old.theta j + vsum fun i => z i * R i j) ∧
    (out.outbound = true ↔ ∃ i, PyFloat.lt (out.newSet.theta i) (P.lower i) = true ∨
      PyFloat.lt (P.upper i) (out.newSet.theta i) = true) ∧
    (out.outbound = true → out.accept = false ∧ out.world.calls = w.calls ∧
      out.world.value = w.value ∧ out.world.rng = (G.randn n w.rng).2) ∧
    (out.outbound = false → (∃ k, k ≠ 0 ∧
        out.world.calls = List.replicate k (writeAt P.parind out.newSet.theta w.value) ++ w.calls) ∧
      out.world.rng = (G.rand (G.randn n w.rng).2).2) := by
  unfold runMetropolisStep at h
  dsimp only at h
  split at h
  · rename_i ho
    cases h
    refine ⟨rfl, fun j => rfl, ⟨fun _ => ?_, fun _ => rfl⟩, fun _ => ⟨rfl, rfl, rfl, rfl⟩,
      fun h => by cases h⟩
    unfold isOutside at ho
    simp only [Bool.or_eq_true, List.any_eq_true, List.mem_finRange, true_and] at ho
    rcases ho with ⟨i, hi⟩ | ⟨i, hi⟩
    · exact ⟨i, Or.inl hi⟩
    · exact ⟨i, Or.inr hi⟩
  · rename_i ho
    rw [bind_ok] at h
    obtain ⟨e, he, h⟩ := h
    cases h
    refine ⟨rfl, fun j => rfl, ⟨fun h => by (change false = true at h; cases h), fun hi => ?_⟩,
      fun h => (by change false = true at h; cases h), fun _ => ?_⟩
    · exfalso
      apply ho
      unfold isOutside
      simp only [Bool.or_eq_true, List.any_eq_true, List.mem_finRange, true_and]
      obtain ⟨i, hi | hi⟩ := hi
      · exact Or.inl ⟨i, hi⟩
      · exact Or.inr ⟨i, hi⟩
    · unfold evaluateSos at he
      dsimp only at he
      have hr : e.2.rng = (G.randn n w.rng).2 ∧ ∃ k, k ≠ 0 ∧ e.2.calls = List.replicate k
          (writeAt P.parind (sampleCandidate G old.theta R w).1 w.value) ++ w.calls := by
        split at he
        · split at he
          · cases he; exact ⟨rfl, 1, one_ne_zero, rfl⟩
          · split at he
            · cases he; exact ⟨rfl, 2, two_ne_zero, rfl⟩
            · cases he
          · cases he
        · split at he
          · cases he; exact ⟨rfl, 1, one_ne_zero, rfl⟩
          · cases he
      exact ⟨hr.2, by
        change (G.rand e.2.rng).2 = _
        rw [hr.1]⟩

end general

variable {σ : Type} {N n m : ℕ}

theorem logOf_lt_sub {u e0 : ℝ} (hu : 0 ≤ u) (e1 : Option ℝ) :
    PyFloat.lt (PyFloat.log (XR.fin u)) (logOf e1 - logOf (some e0)) = true ↔
      u < (match e1 with | none => 0 | some e => Real.exp e) / Real.exp e0 := by
  cases e1 with
  | none =>
    simp only [zero_div, not_lt.2 hu, iff_false]
    have : logOf none - logOf (some e0) = XR.ninf := rfl
    rw [this]
    cases PyFloat.log (XR.fin u) <;> simp [PyFloat.lt, XR.lt]
  | some e1 =>
    simp only [logOf, fin_sub]
    rw [← Real.exp_sub]
    rcases eq_or_lt_of_le hu with h | h
    · subst h
      have : PyFloat.log (XR.fin 0) = XR.ninf := by simp [PyFloat.log, XR.log]
      rw [this]
      simp [PyFloat.lt, XR.lt, Real.exp_pos]
    · rw [log_fin h, fin_lt, decide_eq_true_iff, Real.log_lt_iff_lt_exp h]

/-- **C07.** A first-stage proposal is accepted exactly when the uniform draw is smaller than
the ratio of the posterior densities of the proposal and the current point (0 outside the
limits). -/
theorem C07_accept_iff (hm : 0 < m) {P : Problem XR N n m} {G : Rng σ XR} {old : ParamSet XR n m}
    {R : Mat XR n} {w : World XR σ N} {out : StepOut XR σ N n m} {z : Vec XR n}
    (h : runMetropolisStep P G old R w = .ok (out, z)) {x y : Point n}
    (hx : Represents old x) (hin : x.logpost ≠ none) (hy : Represents out.newSet y)
    {u : ℝ} (hu : 0 ≤ u) (hdraw : (G.rand (G.randn n w.rng).2).1 = XR.fin u) :
    out.accept = true ↔ u < y.density / x.density := by
  obtain ⟨e0, he0⟩ : ∃ e, x.logpost = some e := Option.ne_none_iff_exists'.1 hin
  have hxd : x.density = Real.exp e0 := by rw [Point.density, he0]
  have hx' := hx.energy_eq hm
  have hy' := hy.energy_eq hm
  unfold runMetropolisStep at h
  dsimp only at h
  split at h
  · cases h
    have : y.density = 0 := by
      unfold Point.density
      cases hl : y.logpost with
      | none => rfl
      | some e =>
        exfalso
        obtain ⟨v, -, -, hv⟩ := hy.energy
        rw [hl] at hv
        obtain ⟨q, r, hq, -⟩ := hv
        have := congrFun hq ⟨0, hm⟩
        cases this
    rw [this, zero_div]
    simp [not_lt.2 hu]
  · rw [bind_ok] at h
    obtain ⟨e, he, h⟩ := h
    have hr : e.2.rng = (G.randn n w.rng).2 := by
      unfold evaluateSos at he
      dsimp only at he
      split at he
      · split at he
        · cases he; rfl
        · split at he
          · cases he; rfl
          · cases he
        · cases he
      · split at he
        · cases he; rfl
        · cases he
    cases h
    dsimp only at hy'
    change PyFloat.lt (PyFloat.log (G.rand e.2.rng).1) (calcLogPosteriorRatio _ _ _ _) = true ↔ _
    unfold calcLogPosteriorRatio
    rw [hr, hdraw, hy', hx', he0, logOf_lt_sub hu, hxd]
    rfl

/-- **C07.** A proposal at least as probable as the current point is accepted whatever the
uniform draw. -/
theorem C07_uphill (hm : 0 < m) {P : Problem XR N n m} {G : Rng σ XR} {old : ParamSet XR n m}
    {R : Mat XR n} {w : World XR σ N} {out : StepOut XR σ N n m} {z : Vec XR n}
    (h : runMetropolisStep P G old R w = .ok (out, z)) {x y : Point n}
    (hx : Represents old x) (hin : x.logpost ≠ none) (hy : Represents out.newSet y)
    {u : ℝ} (hu : 0 ≤ u) (hu1 : u < 1) (hdraw : (G.rand (G.randn n w.rng).2).1 = XR.fin u)
    (hxy : x.density ≤ y.density) : out.accept = true := by
  rw [C07_accept_iff hm h hx hin hy hu hdraw]
  obtain ⟨e0, he0⟩ : ∃ e, x.logpost = some e := Option.ne_none_iff_exists'.1 hin
  have : 0 < x.density := by rw [Point.density, he0]; exact Real.exp_pos _
  exact lt_of_lt_of_le hu1 ((one_le_div this).2 hxy)

/-! ### C08 -/

/-- A generator that yields the normal draw `z` and the uniform draw `u`. -/
noncomputable def drawing {n : ℕ} (z : Fin n → ℝ) (u : ℝ) : Rng Unit XR where
  randn k _ := (fun i => if h : (i : ℕ) < n then .fin (z ⟨i, h⟩) else .fin 0, ())
  rand _ := (.fin u, ())

theorem drawing_randn {n : ℕ} (z : Fin n → ℝ) (u : ℝ) (s : Unit) :
    ((drawing z u).randn n s).1 = fun i => .fin (z i) := by
  funext i
  simp [drawing]

/-- Probability, over the uniform draw on `[0,1)`, that the step from `s` with normal draw `z`
accepts its proposal. -/
noncomputable def acceptProb (P : Problem XR N n m) (s : ParamSet XR n m) (R : Mat XR n)
    (w : World XR Unit N) (z : Fin n → ℝ) : ℝ :=
  (MeasureTheory.volume {u : ℝ | 0 ≤ u ∧ u < 1 ∧
    ∃ out z', runMetropolisStep P (drawing z u) s R w = .ok (out, z') ∧ out.accept = true}).toReal

/-- density (unnormalised) of a standard normal vector -/
noncomputable def stdNormal (z : Fin n → ℝ) : ℝ := Real.exp (-(1 / 2) * ∑ i, z i ^ 2)

theorem acceptProb_of_iff {P : Problem XR N n m} {s : ParamSet XR n m} {R : Mat XR n}
    {w : World XR Unit N} {z : Fin n → ℝ} {r : ℝ} (hr : 0 ≤ r)
    (h : ∀ u, 0 ≤ u → u < 1 →
      ((∃ out z', runMetropolisStep P (drawing z u) s R w = .ok (out, z') ∧ out.accept = true) ↔ u < r)) :
    acceptProb P s R w z = min 1 r := by
  unfold acceptProb
  have : {u : ℝ | 0 ≤ u ∧ u < 1 ∧
      ∃ out z', runMetropolisStep P (drawing z u) s R w = .ok (out, z') ∧ out.accept = true} =
      Set.Ico 0 (min 1 r) := by
    ext u
    simp only [Set.mem_setOf_eq, Set.mem_Ico, lt_min_iff]
    constructor
    · rintro ⟨h1, h2, h3⟩
      exact ⟨h1, h2, (h u h1 h2).1 h3⟩
    · rintro ⟨h1, h2, h3⟩
      exact ⟨h1, h2, (h u h1 h2).2 h3⟩
  rw [this, Real.volume_Ico, sub_zero, ENNReal.toReal_ofReal (le_min zero_le_one hr)]

theorem metropolis_from_to (hm : 0 < m) {P : Problem XR N n m} {R W : Fin n → Fin n → ℝ}
    (hWR : ∀ i j, ∑ k, W i k * R k j = if i = j then 1 else 0)
    {w : World XR Unit N} {sx sy : ParamSet XR n m} {x y : Point n}
    (hx : Represents sx x) (hy : Represents sy y) (hsig : sx.sigma2 = sy.sigma2)
    (hxin : x.logpost ≠ none) (hyin : y.logpost ≠ none)
    (hylim : isOutside sy.theta P.lower P.upper = false)
    (hyprior : sy.prior = P.prior sy.theta)
    (hysos : ∃ w', evaluateSos P sy.theta w = .ok (sy.ss, w')) :
    (∀ u, ∃ out z', runMetropolisStep P (drawing (fun j => ∑ i, (y.theta i - x.theta i) * W i j) u)
        sx (fun i j => .fin (R i j)) w = .ok (out, z') ∧ out.newSet.theta = sy.theta) ∧
    acceptProb P sx (fun i j => .fin (R i j)) w (fun j => ∑ i, (y.theta i - x.theta i) * W i j) =
      min 1 (y.density / x.density) := by
  set z : Fin n → ℝ := fun j => ∑ i, (y.theta i - x.theta i) * W i j with hz
  have hcand : ∀ u, (sampleCandidate (drawing z u) sx.theta (fun i j => XR.fin (R i j)) w).1 =
      sy.theta := by
    intro u
    unfold sampleCandidate
    dsimp only
    rw [drawing_randn, hx.theta, hy.theta, vecMat_fin]
    funext j
    rw [fin_add, fin_inj]
    have : ∑ k, z k * R k j = y.theta j - x.theta j := by
      rw [hz]
      simp only [Finset.sum_mul]
      rw [Finset.sum_comm]
      have : ∀ i, ∑ k, (y.theta i - x.theta i) * W i k * R k j =
          (y.theta i - x.theta i) * if i = j then 1 else 0 := by
        intro i
        rw [← hWR i j, Finset.mul_sum]
        exact Finset.sum_congr rfl fun k _ => by ring
      simp [this]
    rw [this]; ring
  have hrun : ∀ u, ∃ out z', runMetropolisStep P (drawing z u) sx (fun i j => .fin (R i j)) w =
      .ok (out, z') ∧ out.newSet.theta = sy.theta ∧ Represents out.newSet y := by
    intro u
    obtain ⟨w', hw'⟩ := hysos
    have hw2 : ∃ w'', evaluateSos P sy.theta
        (sampleCandidate (drawing z u) sx.theta (fun i j => XR.fin (R i j)) w).2.2 =
        .ok (sy.ss, w'') := by
      unfold sampleCandidate
      unfold evaluateSos at hw' ⊢
      dsimp only at hw' ⊢
      split at hw'
      · rename_i h1
        rw [if_pos h1]
        split at hw'
        · cases hw'; exact ⟨_, rfl⟩
        · split at hw'
          · cases hw'; exact ⟨_, rfl⟩
          · cases hw'
        · cases hw'
      · rename_i h1
        rw [if_neg h1]
        split at hw'
        · cases hw'; exact ⟨_, rfl⟩
        · cases hw'
    obtain ⟨w'', hw2⟩ := hw2
    unfold runMetropolisStep
    dsimp only
    rw [hcand u, if_neg (by simp [hylim]), hw2]
    refine ⟨_, _, rfl, rfl, ?_⟩
    refine ⟨hy.theta, ?_⟩
    dsimp only
    rw [hsig, ← hyprior]
    exact hy.energy
  refine ⟨fun u => ?_, ?_⟩
  · obtain ⟨out, z', h1, h2, -⟩ := hrun u
    exact ⟨out, z', h1, h2⟩
  · have hd : ∀ p : Point n, p.logpost ≠ none → 0 < p.density := by
      intro p hp
      obtain ⟨e, he⟩ : ∃ e, p.logpost = some e := Option.ne_none_iff_exists'.1 hp
      rw [Point.density, he]; exact Real.exp_pos _
    refine acceptProb_of_iff (div_nonneg (hd y hyin).le (hd x hxin).le) fun u hu _ => ?_
    obtain ⟨out, z', h1, h2, h3⟩ := hrun u
    have := C07_accept_iff hm h1 hx hxin h3 hu rfl
    rw [← this]
    constructor
    · rintro ⟨out', z'', h4, h5⟩
      rw [h1] at h4; cases h4; exact h5
    · intro h; exact ⟨out, z', h1, h⟩

/-- **C08.** Reversibility of the Metropolis step.  For two points `x`, `y` inside the limits,
with the sums of squares and priors the user's functions give, the proposal factor `R` with
inverse `W`: the normal draw `(y - x) W` takes the step from `x` to the proposal `y`, the draw
`(x - y) W` from `y` to `x`, and posterior density × density of the draw × acceptance probability
is the same in the two directions. -/
theorem C08_detailed_balance (hm : 0 < m) {P : Problem XR N n m} {R W : Fin n → Fin n → ℝ}
    (hWR : ∀ i j, ∑ k, W i k * R k j = if i = j then 1 else 0)
    {w : World XR Unit N} {sx sy : ParamSet XR n m} {x y : Point n}
    (hx : Represents sx x) (hy : Represents sy y) (hsig : sx.sigma2 = sy.sigma2)
    (hxin : x.logpost ≠ none) (hyin : y.logpost ≠ none)
    (hxlim : isOutside sx.theta P.lower P.upper = false)
    (hylim : isOutside sy.theta P.lower P.upper = false)
    (hxprior : sx.prior = P.prior sx.theta) (hyprior : sy.prior = P.prior sy.theta)
    (hxsos : ∃ w', evaluateSos P sx.theta w = .ok (sx.ss, w'))
    (hysos : ∃ w', evaluateSos P sy.theta w = .ok (sy.ss, w')) :
    let Rx : Mat XR n := fun i j => .fin (R i j)
    let zxy : Fin n → ℝ := fun j => ∑ i, (y.theta i - x.theta i) * W i j
    let zyx : Fin n → ℝ := fun j => ∑ i, (x.theta i - y.theta i) * W i j
    (∀ u, ∃ out z', runMetropolisStep P (drawing zxy u) sx Rx w = .ok (out, z') ∧
      out.newSet.theta = sy.theta) ∧
    (∀ u, ∃ out z', runMetropolisStep P (drawing zyx u) sy Rx w = .ok (out, z') ∧
      out.newSet.theta = sx.theta) ∧
    x.density * stdNormal zxy * acceptProb P sx Rx w zxy =
      y.density * stdNormal zyx * acceptProb P sy Rx w zyx := by
  intro Rx zxy zyx
  obtain ⟨f1, f2⟩ := metropolis_from_to hm hWR hx hy hsig hxin hyin hylim hyprior hysos
  obtain ⟨b1, b2⟩ := metropolis_from_to hm hWR hy hx hsig.symm hyin hxin hxlim hxprior hxsos
  refine ⟨f1, b1, ?_⟩
  change x.density * _ * acceptProb P sx (fun i j => .fin (R i j)) w _ =
    y.density * _ * acceptProb P sy (fun i j => .fin (R i j)) w _
  rw [f2, b2]
  have hz : stdNormal zxy = stdNormal zyx := by
    unfold stdNormal
    congr 2
    refine Finset.sum_congr rfl fun j _ => ?_
    have : zxy j = - zyx j := by
      change ∑ i, (y.theta i - x.theta i) * W i j = -∑ i, (x.theta i - y.theta i) * W i j
      rw [← Finset.sum_neg_distrib]
      exact Finset.sum_congr rfl fun i _ => by ring
    rw [this]; ring
  have hd : ∀ p : Point n, p.logpost ≠ none → 0 < p.density := by
    intro p hp
    obtain ⟨e, he⟩ : ∃ e, p.logpost = some e := Option.ne_none_iff_exists'.1 hp
    rw [Point.density, he]; exact Real.exp_pos _
  have dx := hd x hxin
  have dy := hd y hyin
  rw [hz]
  have e1 : x.density * min 1 (y.density / x.density) = min x.density y.density := by
    rw [mul_min_of_nonneg _ _ dx.le, mul_one, mul_div_cancel₀ _ dx.ne']
  have e2 : y.density * min 1 (x.density / y.density) = min x.density y.density := by
    rw [mul_min_of_nonneg _ _ dy.le, mul_one, mul_div_cancel₀ _ dy.ne', min_comm]
  calc x.density * stdNormal zyx * min 1 (y.density / x.density)
      = stdNormal zyx * (x.density * min 1 (y.density / x.density)) := by ring
    _ = stdNormal zyx * (y.density * min 1 (x.density / y.density)) := by rw [e1, e2]
    _ = _ := by ring

/-! ### The hypotheses can be met -/

namespace XToy

/-- One parameter, one data set, sum of squares `θ²`, flat prior, limits `[0, 2]`. -/
noncomputable def prob : Problem XR 1 1 1 where
  parind := id
  lower _ := .fin 0
  upper _ := .fin 2
  style1 := false
  sosFun _ v := .ok fun _ => v 0 * v 0
  prior _ := .fin 0

/-- the point `t` with error variance 1 -/
noncomputable def set (t : ℝ) : ParamSet XR 1 1 :=
  ⟨fun _ => .fin t, fun _ => .fin (t * t), .fin 0, fun _ => .fin 1, none⟩

/-- the same as a mathematical point -/
noncomputable def point (t : ℝ) : Point 1 := ⟨fun _ => t, some (-(1 / 2) * (t * t))⟩

theorem rep (t : ℝ) : Represents (set t) (point t) :=
  ⟨rfl, fun _ => 1, fun _ => one_pos, rfl, fun _ => t * t, 0, rfl, rfl, by simp⟩

theorem writeAt_id (t : XR) (v : Vec XR 1) : writeAt (id : Fin 1 → Fin 1) (fun _ => t) v = fun _ => t := by
  funext k
  rw [Subsingleton.elim k 0]
  rfl

theorem sos (t : ℝ) {σ : Type} (w : World XR σ 1) :
    ∃ w', evaluateSos prob (set t).theta w = .ok ((set t).ss, w') := by
  unfold evaluateSos prob set
  dsimp only
  rw [writeAt_id]
  exact ⟨_, rfl⟩

theorem inside {t : ℝ} (h0 : 0 ≤ t) (h2 : t ≤ 2) :
    isOutside (set t).theta prob.lower prob.upper = false := by
  unfold isOutside
  simp [set, prob, List.finRange, not_lt.2 h0, not_lt.2 h2]

end XToy

/-- C08's hypotheses hold for `x = 1`, `y = 3/2`, `R = 2`, `W = 1/2`. -/
example : (XToy.point 1).density * stdNormal (n := 1) (fun _ => ∑ _i : Fin 1, ((3/2 : ℝ) - 1) * (1/2)) *
      acceptProb XToy.prob (XToy.set 1) (fun _ _ => .fin 2) ⟨(), fun _ => .fin 0, []⟩
        (fun _ => ∑ _i : Fin 1, ((3/2 : ℝ) - 1) * (1/2)) =
    (XToy.point (3/2)).density * stdNormal (n := 1) (fun _ => ∑ _i : Fin 1, ((1 : ℝ) - 3/2) * (1/2)) *
      acceptProb XToy.prob (XToy.set (3/2)) (fun _ _ => .fin 2) ⟨(), fun _ => .fin 0, []⟩
        (fun _ => ∑ _i : Fin 1, ((1 : ℝ) - 3/2) * (1/2)) :=
  (C08_detailed_balance (m := 1) one_pos (R := fun _ _ => 2) (W := fun _ _ => 1/2)
    (by intro i j; simp [Subsingleton.elim i j]) (XToy.rep 1) (XToy.rep (3/2)) rfl
    (by simp [XToy.point]) (by simp [XToy.point]) (XToy.inside (by norm_num) (by norm_num))
    (XToy.inside (by norm_num) (by norm_num)) rfl rfl (XToy.sos _ _) (XToy.sos _ _)).2.2

/-- C07's hypotheses hold: from 1 the draw `1/4` proposes `3/2`, whose density ratio is
`exp(-5/8)`; with `u = 0` it is accepted. -/
example : ∃ out z', runMetropolisStep XToy.prob (drawing (fun _ : Fin 1 => 1/4) 0) (XToy.set 1)
    (fun _ _ => .fin 2) ⟨(), fun _ => .fin 0, []⟩ = .ok (out, z') ∧ out.accept = true := by
  obtain ⟨out, z', h, ht⟩ := (metropolis_from_to (m := 1) one_pos (R := fun _ _ => 2)
    (W := fun _ _ => 1/2) (w := ⟨(), fun _ => .fin 0, []⟩)
    (by intro i j; simp [Subsingleton.elim i j]) (XToy.rep 1) (XToy.rep (3/2)) rfl
    (by simp [XToy.point]) (by simp [XToy.point])
    (XToy.inside (by norm_num) (by norm_num)) rfl (XToy.sos _ _)).1 0
  have hz : (fun _ : Fin 1 => ∑ i : Fin 1, ((XToy.point (3/2)).theta i - (XToy.point 1).theta i) * (1/2)) =
      fun _ => 1/4 := by
    funext j; simp [XToy.point]; norm_num
  rw [hz] at h
  refine ⟨out, z', h, ?_⟩
  have hn : Represents out.newSet (XToy.point (3/2)) := by
    have h' := h
    unfold runMetropolisStep at h'
    dsimp only at h'
    split at h'
    · rename_i ho
      cases h'
      dsimp only [setOutsideBounds] at ht
      rw [ht, XToy.inside (by norm_num) (by norm_num)] at ho
      cases ho
    · rw [bind_ok] at h'
      obtain ⟨e, he, h'⟩ := h'
      cases h'
      dsimp only at ht ⊢
      obtain ⟨w', hw⟩ := XToy.sos (3/2) (sampleCandidate (drawing (fun _ : Fin 1 => 1/4) 0)
        (XToy.set 1).theta (fun _ _ => XR.fin 2) ⟨(), fun _ => .fin 0, []⟩).2.2
      rw [ht, hw] at he
      cases he
      refine ⟨ht, ?_⟩
      exact (XToy.rep (3/2)).energy
  rw [C07_accept_iff one_pos h (XToy.rep 1) (by simp [XToy.point]) hn le_rfl rfl]
  have : 0 < (XToy.point (3/2)).density / (XToy.point 1).density := by
    simp only [Point.density, XToy.point]; positivity
  exact this

end Verif
