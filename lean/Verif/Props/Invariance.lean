import Verif.Lemmas.DrMove
import Verif.Lemmas.CoinRng
import Verif.Props.Stages
import Verif.Props.Valid

/-! # C82: the posterior distribution is kept -/

set_option linter.unusedSectionVars false

namespace Verif
open XR MeasureTheory Finset Function
open scoped ENNReal Matrix

section link
variable {σ : Type} [MeasurableSpace σ] {μ : Measure σ} {G : Rng σ XR} {n m : ℕ}

attribute [local irreducible] gauss

theorem pointAt_update (lp : (Fin n → ℝ) → Option ℝ) (P : ℕ → Fin n → ℝ) (k : ℕ) (y : Fin n → ℝ) :
    (fun i => pointAt lp (update P (k + 1) y i)) =
      fun i => if i = k + 1 then pointAt lp y else pointAt lp (P i) := by
  funext i
  by_cases h : i = k + 1
  · subst h; simp
  · rw [update_of_ne h, if_neg h]

/-- the user's log posterior density, as the stages of an iteration see it -/
structure IsLogPost (inside : Vec XR n → Prop) (sos : Vec XR n → Vec XR m → Prop) (prior : Vec XR n → XR)
    (v : Fin m → ℝ) (lp : (Fin n → ℝ) → Option ℝ) : Prop where
  outside : ∀ θ, ¬ inside (finVec θ) → lp θ = none
  atInside : ∀ θ (q : Fin m → ℝ) (r : ℝ), inside (finVec θ) → sos (finVec θ) (finVec q) →
    prior (finVec θ) = .fin r → lp θ = some (-(1 / 2) * ∑ i, q i / v i - 1 / 2 * r)

theorem move_eq (D : IdealRng G n μ) {row θ : Vec XR n} {x : Fin n → ℝ} (hrow : row = finVec x)
    {R : Mat XR n} {A : Matrix (Fin n) (Fin n) ℝ} (hR : R = finMx A) {s : σ}
    (h : ∀ i, θ i = row i + vsum fun j => (G.randn n s).1 j * R j i) : θ = finVec (x + D.z s ᵥ* A) := by
  funext i
  rw [h i, hrow, hR, D.randn]
  simp only [finVec, finMx, finMat, fin_mul, vsum_fin, fin_add, Pi.add_apply, Matrix.vecMul, dotProduct]

theorem stages_move (hm : 0 < m) {inside : Vec XR n → Prop} {sos : Vec XR n → Vec XR m → Prop}
    {prior : Vec XR n → XR} {R0 : Mat XR n} {RDR : Slot (List (Mat XR n))}
    {invR : Option (List (Mat XR n))} {ntry : ℕ} {W : ℕ → Fin n → Fin n → ℝ}
    (hF : FiniteStages sos prior G R0 RDR invR ntry W) (D : IdealRng G n μ)
    {A : ℕ → Matrix (Fin n) (Fin n) ℝ}
    (hA : ∀ l, RDR = .some l → ∀ k R, 0 < k → k < ntry → l[k]? = some R → R = finMx (A k))
    {row : Vec XR n} {x : Fin n → ℝ} (hrow : row = finVec x) {sigma2 : Vec XR m} {v : Fin m → ℝ}
    (hv : ∀ i, 0 < v i) (hsig : sigma2 = finVec v) {lp : (Fin n → ℝ) → Option ℝ}
    (hlp : IsLogPost inside sos prior v lp) (left : ℕ) :
    ∀ {k : ℕ} {S : ℕ → ParamSet XR n m} {P : ℕ → Fin n → ℝ} {s s' : σ} {ts : List (Try XR n)},
      0 < k → k + left ≤ ntry → (∀ i ≤ k, Represents (S i) (pointAt lp (P i))) → P 0 = x → lp x ≠ none →
      (∀ i < k, alphaAt W lp i P ≠ 1) →
      Stages inside sos prior G row sigma2 RDR invR left k (pathOf S k) s ts s' →
      ∃ y, moveFrom D A W lp left k P s = (y, s') ∧
        ((y = x ∧ ∀ t ∈ ts, t.accepted = false) ∨ ∃ t ∈ ts, t.accepted = true ∧ t.theta = finVec y) := by
  induction left with
  | zero =>
    intro k S P s s' ts _ _ _ hP0 _ _ h
    obtain ⟨rfl, rfl⟩ := h
    exact ⟨x, by rw [moveFrom, hP0], .inl ⟨rfl, by simp⟩⟩
  | succ left ih =>
    intro k S P s s' ts hk0 hk hS hP0 h0 hrej h
    obtain ⟨l, R, t, ts', hl, hlR, rfl, hmove, hout, hin⟩ := h
    have hy := move_eq D hrow (hA l hl k R hk0 (by omega) hlR) hmove
    have hran : (G.randn n s).2 = D.afterZ s := by rw [D.randn]
    have hran2 : (G.rand (G.randn n s).2).2 = D.afterU (D.afterZ s) := by rw [hran, D.rand]
    have hu : (G.rand (G.randn n s).2).1 = .fin (D.u (D.afterZ s)) := by rw [hran, D.rand]
    have hlt1 := (D.range (D.afterZ s)).2
    set y := x + D.z s ᵥ* A k with hydef
    set P' := update P (k + 1) y with hP'
    have hpt := pointAt_update lp P k y
    -- a step further along the path that ends in `y`
    have cont : ∀ (nx : ParamSet XR n m) (s1 : σ), Represents nx (pointAt lp y) →
        alphaAt W lp k P' ≠ 1 → t.accepted = false →
        Stages inside sos prior G row sigma2 RDR invR left (k + 1) (pathOf S k ++ [nx]) s1 ts' s' →
        ∃ z, moveFrom D A W lp left (k + 1) P' s1 = (z, s') ∧
          ((z = x ∧ ∀ t' ∈ t :: ts', t'.accepted = false) ∨
            ∃ t' ∈ t :: ts', t'.accepted = true ∧ t'.theta = finVec z) := by
      intro nx s1 hrep hne hacc hst
      rw [← pathOf_snoc] at hst
      obtain ⟨z, g1, g2⟩ := ih (P := P') (by omega) (by omega)
        (fun i hi => by
          have := congrFun hpt i
          rw [this]
          by_cases hik : i = k + 1
          · simp only [if_pos hik]; exact hrep
          · simp only [if_neg hik]; exact hS i (by omega))
        (by rw [hP', update_of_ne (by omega), hP0]) h0
        (fun i hi => by
          by_cases hik : i = k
          · subst hik; exact hne
          · rw [alphaAt_congr (Q := P) fun j hj => by rw [hP', update_of_ne (by omega)]]
            exact hrej i (by omega)) hst
      refine ⟨z, g1, ?_⟩
      rcases g2 with ⟨e1, e2⟩ | ⟨t', e1, e2⟩
      · exact .inl ⟨e1, by simpa [hacc] using e2⟩
      · exact .inr ⟨t', List.mem_cons_of_mem _ e1, e2⟩
    rw [moveFrom, hP0, ← hydef, ← hP']
    by_cases hins : inside t.theta
    · obtain ⟨ss, inv, α, c, c', g1, g2, g3, g4, g5⟩ := hin hins
      rw [hy] at g1
      obtain ⟨q, hq⟩ := hF.sos y ss g1
      obtain ⟨r, hr⟩ := hF.prior y
      have hr' : prior t.theta = .fin r := by rw [hy]; exact hr
      have hlpy := hlp.atInside y q r (by rw [← hy]; exact hins) (by rw [hq] at g1; exact g1) hr
      have hrep : Represents (⟨t.theta, ss, prior t.theta, sigma2, none⟩ : ParamSet XR n m)
          (pointAt lp y) := by
        refine ⟨hy, v, hv, hsig, ?_⟩
        unfold pointAt
        rw [hlpy]
        exact ⟨q, r, hq, hr', rfl⟩
      have hal := C78_acceptance_probability hm (invR := inv) (W := W) k (fun i hi => hF.inv inv g2 i (by omega))
        (S := fun i => if i = k + 1 then ⟨t.theta, ss, prior t.theta, sigma2, none⟩ else S i)
        (P := fun i => pointAt lp (P' i))
        (fun i hi => by
          have := congrFun hpt i
          rw [this]
          by_cases hik : i = k + 1
          · simp only [if_pos hik]; exact hrep
          · simp only [if_neg hik]; exact hS i (by omega))
        (by
          change lp (P' 0) ≠ none
          rw [hP', update_of_ne (by omega), hP0]; exact h0)
        (fun i hi => by
          have : alphaAt W lp i P' ≠ 1 := by
            rw [alphaAt_congr (Q := P) fun j hj => by rw [hP', update_of_ne (by omega)]]
            exact hrej i hi
          exact this)
      obtain ⟨c'', hc''⟩ := hal c
      rw [pathOf_snoc, g3] at hc''
      obtain rfl : α = .fin (alphaAt W lp k P') := by
        cases hc''; rfl
      rw [if_pos (density_pos_iff.2 (by rw [hlpy]; simp))]
      by_cases h1 : 1 ≤ alphaAt W lp k P'
      · obtain ⟨e1, e2, e3⟩ := g4 (by simpa using h1)
        rw [if_pos ⟨hk0, h1⟩]
        exact ⟨y, by rw [e3, hran], .inr ⟨t, List.mem_cons_self, e1, hy⟩⟩
      · rw [if_neg (fun h => h1 h.2)]
        obtain ⟨e1, e2, e3⟩ := g5 (by simpa using h1)
        rw [hu] at e1
        by_cases hlt : D.u (D.afterZ s) < alphaAt W lp k P'
        · rw [if_pos hlt]
          have hacc : t.accepted = true := by rw [e1]; simpa using hlt
          exact ⟨y, by rw [(e2 hacc).2, hran2], .inr ⟨t, List.mem_cons_self, hacc, hy⟩⟩
        · rw [if_neg hlt]
          have hacc : t.accepted = false := by rw [e1]; simpa using hlt
          have := e3 hacc
          rw [hran2] at this
          exact cont _ _ hrep (fun h => h1 h.ge) hacc this
    · obtain ⟨g1, g2⟩ := hout hins
      have hlpy := hlp.outside y (by rw [← hy]; exact hins)
      rw [if_neg (fun h => density_pos_iff.1 h hlpy)]
      have hrep : Represents (outsideSet t.theta sigma2 : ParamSet XR n m) (pointAt lp y) := by
        unfold pointAt
        rw [hlpy]
        exact represents_outside (v := v) hy rfl (by simp [outsideSet]) hv hsig
      rw [hran] at g2
      exact cont _ _ hrep (by
        rw [alphaAt_outside (by rw [hP', update_self]; exact hlpy)]; norm_num) g1 g2

theorem iteration_move (hm : 0 < m) {inside : Vec XR n → Prop} {sos : Vec XR n → Vec XR m → Prop}
    {prior : Vec XR n → XR} {R : Mat XR n} {RDR : Slot (List (Mat XR n))}
    {invR : Option (List (Mat XR n))} {ntry : ℕ} {W : ℕ → Fin n → Fin n → ℝ}
    (hF : FiniteStages sos prior G R RDR invR ntry W) (D : IdealRng G n μ)
    {A : ℕ → Matrix (Fin n) (Fin n) ℝ} (hA0 : R = finMx (A 0))
    (hA : ∀ l, RDR = .some l → ∀ k R, 0 < k → k < ntry → l[k]? = some R → R = finMx (A k))
    {v : Fin m → ℝ} (hv : ∀ i, 0 < v i) {lp : (Fin n → ℝ) → Option ℝ}
    (hlp : IsLogPost inside sos prior v lp) {row : ParamSet XR n m} (hsig : row.sigma2 = finVec v)
    {x : Fin n → ℝ} (hrep : Represents row (pointAt lp x)) (h0 : lp x ≠ none) {s s' : σ}
    {ts : List (Try XR n)} (h : Iteration inside sos prior G row R RDR invR ntry s ts s')
    {row' : Vec XR n} (hmv : Move row.theta row' ts) :
    ∃ y, row' = finVec y ∧ moveFrom D A W lp (max 1 ntry) 0 (fun _ => x) s = (y, s') := by
  suffices hs : ∃ y, moveFrom D A W lp (max 1 ntry) 0 (fun _ => x) s = (y, s') ∧
      ((y = x ∧ ∀ t ∈ ts, t.accepted = false) ∨ ∃ t ∈ ts, t.accepted = true ∧ t.theta = finVec y) by
    obtain ⟨y, g1, g2⟩ := hs
    refine ⟨y, ?_, g1⟩
    rcases g2 with ⟨rfl, e⟩ | ⟨t, ht, e1, e2⟩
    · rcases hmv with ⟨rfl, -⟩ | ⟨pre, t, rfl, e1, -⟩
      · exact hrep.theta
      · have := e t (by simp)
        rw [e1] at this; cases this
    · rcases hmv with ⟨-, e⟩ | ⟨pre, t', rfl, e3, -, rfl, e4⟩
      · have := e t ht
        rw [e1] at this; cases this
      · rcases List.mem_append.1 ht with h1 | h1
        · have := e4 t h1
          rw [e1] at this; cases this
        · rw [List.mem_singleton] at h1
          subst h1; exact e2
  obtain ⟨t, ts', rfl, hmove, hout, hin⟩ := h
  have hy := move_eq D (x := x) hrep.theta hA0 hmove
  have hran : (G.randn n s).2 = D.afterZ s := by rw [D.randn]
  have hran2 : (G.rand (G.randn n s).2).2 = D.afterU (D.afterZ s) := by rw [hran, D.rand]
  have hu : (G.rand (G.randn n s).2).1 = .fin (D.u (D.afterZ s)) := by rw [hran, D.rand]
  obtain ⟨hu0, hlt1⟩ := D.range (D.afterZ s)
  set y := x + D.z s ᵥ* A 0 with hydef
  set P' : ℕ → Fin n → ℝ := update (fun _ => x) (0 + 1) y with hP'
  have hd0 : 0 < (pointAt lp x).density := density_pos_iff.2 h0
  have hrow' : Represents { row with alpha := none } (pointAt lp x) := ⟨hrep.theta, hrep.energy⟩
  have hP0 : P' 0 = x := by rw [hP', update_of_ne (by omega)]
  have hP1 : P' 1 = y := by rw [hP']; exact update_self ..
  -- the first acceptance probability
  have hfirst : alphaAt W lp 0 P' = min 1 ((pointAt lp y).density / (pointAt lp x).density) := by
    unfold alphaAt
    rw [drAlpha]
    have hg : gauss (W 0) y x = gauss (W 0) x y := by
      unfold gauss
      congr 2
      refine Finset.sum_congr rfl fun j _ => ?_
      rw [← neg_sq (∑ i, (x i - y i) * W 0 i j), ← Finset.sum_neg_distrib]
      congr 1
      exact Finset.sum_congr rfl fun i _ => by ring
    have hgp : gauss (W 0) x y ≠ 0 := by unfold gauss; exact (Real.exp_pos _).ne'
    simp only [zero_add, hP0, hP1, Finset.prod_range_one, Nat.sub_zero, Finset.univ_eq_empty,
      Finset.prod_empty, mul_one]
    rw [show (pointAt lp x).theta = x from rfl, show (pointAt lp y).theta = y from rfl, hg,
      mul_div_mul_right _ _ hgp]
  have cont : ∀ (nx : ParamSet XR n m) (s1 : σ), Represents nx (pointAt lp y) →
      alphaAt W lp 0 P' ≠ 1 → t.accepted = false →
      Stages inside sos prior G row.theta row.sigma2 RDR invR (ntry - 1) 1
        [{ row with alpha := none }, nx] s1 ts' s' →
      ∃ z, moveFrom D A W lp (max 1 ntry - 1) (0 + 1) P' s1 = (z, s') ∧
        ((z = x ∧ ∀ t' ∈ t :: ts', t'.accepted = false) ∨
          ∃ t' ∈ t :: ts', t'.accepted = true ∧ t'.theta = finVec z) := by
    intro nx s1 hnx hne hacc hst
    have hpath : [{ row with alpha := none }, nx] =
        pathOf (fun i => if i = 0 then { row with alpha := none } else nx) 1 := rfl
    rw [hpath] at hst
    rw [show max 1 ntry - 1 = ntry - 1 by omega]
    rcases Nat.eq_zero_or_pos (ntry - 1) with hz | hz
    · rw [hz] at hst ⊢
      obtain ⟨rfl, rfl⟩ := hst
      exact ⟨x, by rw [moveFrom, hP0], .inl ⟨rfl, by simpa using hacc⟩⟩
    · obtain ⟨z, g1, g2⟩ := stages_move hm hF D hA (x := x) hrep.theta hv hsig hlp (ntry - 1) (P := P')
        one_pos (by omega)
        (fun i hi => by
          rcases Nat.lt_or_ge i 1 with h | h
          · obtain rfl : i = 0 := by omega
            rw [hP0]; exact hrow'
          · obtain rfl : i = 1 := by omega
            rw [hP1]; exact hnx)
        hP0 h0
        (fun i hi => by obtain rfl : i = 0 := by omega
                        exact hne) hst
      refine ⟨z, g1, ?_⟩
      rcases g2 with ⟨e1, e2⟩ | ⟨t', e1, e2⟩
      · exact .inl ⟨e1, by simpa [hacc] using e2⟩
      · exact .inr ⟨t', List.mem_cons_of_mem _ e1, e2⟩
  obtain ⟨K, hK⟩ : ∃ K, max 1 ntry = K + 1 := ⟨max 1 ntry - 1, by omega⟩
  rw [hK, Nat.add_sub_cancel] at cont
  rw [hK, moveFrom]
  simp only [← hydef, ← hP']
  by_cases hins : inside t.theta
  · obtain ⟨ss, g1, g2, g3, g4⟩ := hin hins
    rw [hy] at g1
    obtain ⟨q, hq⟩ := hF.sos y ss g1
    obtain ⟨r, hr⟩ := hF.prior y
    have hr' : prior t.theta = .fin r := by rw [hy]; exact hr
    have hlpy := hlp.atInside y q r (by rw [← hy]; exact hins) (by rw [hq] at g1; exact g1) hr
    have hnx : Represents (⟨t.theta, ss, prior t.theta, row.sigma2, none⟩ : ParamSet XR n m)
        (pointAt lp y) := by
      refine ⟨hy, v, hv, hsig, ?_⟩
      unfold pointAt
      rw [hlpy]
      exact ⟨q, r, hq, hr', rfl⟩
    have hdec : t.accepted = true ↔ D.u (D.afterZ s) < alphaAt W lp 0 P' := by
      obtain ⟨v', hv', hs', hen⟩ := hrep.energy
      obtain ⟨e0, he0⟩ := Option.ne_none_iff_exists'.1 h0
      rw [show (pointAt lp x).logpost = some e0 from he0] at hen
      obtain ⟨q0, r0, hq0, hr0, hee⟩ := hen
      obtain rfl : v' = v := by
        rw [hsig] at hs'
        funext i
        exact (fin_injective (congrFun hs' i)).symm
      have hlog : ∀ (a : Fin m → ℝ) (b : ℝ),
          lit (-1/2) * vsum (fun i => (XR.fin (a i)) / XR.fin (v' i)) + lit (-1/2) * XR.fin b =
          XR.fin (-(1 / 2) * ∑ i, a i / v' i - 1 / 2 * b) := by
        intro a b
        have : (fun i => XR.fin (a i) / XR.fin (v' i)) = fun i => XR.fin (a i / v' i) := by
          funext i; rw [fin_div (hv i).ne']
        rw [this, vsum_fin, lit_eq, fin_mul, fin_mul, fin_add]
        congr 1
        push_cast
        ring
      rw [g2, hu, hr', hq0, hr0, hsig, hq]
      simp only [hlog, finVec]
      have := logOf_lt_sub (e0 := -(1 / 2) * ∑ i, q0 i / v' i - 1 / 2 * r0) hu0
        (some (-(1 / 2) * ∑ i, q i / v' i - 1 / 2 * r))
      rw [← hee] at this
      rw [← hee, hfirst, lt_min_iff, and_iff_right hlt1]
      simp only [Point.density, pointAt, he0, hlpy]
      exact this
    rw [if_pos (density_pos_iff.2 (by rw [hlpy]; simp)), if_neg (by simp)]
    by_cases hlt : D.u (D.afterZ s) < alphaAt W lp 0 P'
    · rw [if_pos hlt]
      have hacc := hdec.2 hlt
      exact ⟨y, by rw [(g3 hacc).2, hran2], .inr ⟨t, List.mem_cons_self, hacc, hy⟩⟩
    · rw [if_neg hlt]
      have hacc : t.accepted = false := by
        cases ha : t.accepted with
        | false => rfl
        | true => exact absurd (hdec.1 ha) hlt
      have := g4 hacc
      rw [hran2] at this
      exact cont _ _ hnx (fun h => by rw [h] at hlt; exact hlt hlt1) hacc this
  · obtain ⟨g1, g2⟩ := hout hins
    have hlpy := hlp.outside y (by rw [← hy]; exact hins)
    rw [if_neg (fun h => density_pos_iff.1 h hlpy)]
    have hnx : Represents (outsideSet t.theta row.sigma2 : ParamSet XR n m) (pointAt lp y) := by
      unfold pointAt
      rw [hlpy]
      exact represents_outside (v := v) hy rfl (by simp [outsideSet]) hv hsig
    rw [hran] at g2
    exact cont _ _ hnx (by
      rw [alphaAt_outside (by rw [hP', update_self]; exact hlpy)]; norm_num) g1 g2

end link

section run
variable {σ : Type} [MeasurableSpace σ] {μ : Measure σ} {G : Rng σ XR} {N m : ℕ} {flags : Fin N → Bool}

/-- The parameter table `sp` is the table `specs` with initial values `x` of the sampled parameters. -/
def StartsAt (flags : Fin N → Bool) (specs : Fin N → ParamSpec XR) (x : Fin (nS flags) → ℝ)
    (sp : Fin N → ParamSpec XR) : Prop :=
  (∀ (i : Fin (nS flags)) k, ((List.finRange N).filter flags)[i.val]? = some k →
    sp k = { specs k with theta0 := .fin (x i) }) ∧
  ∀ k, flags k = false → sp k = specs k

/-- The error variances `v` of settings without `N0`: one if the user gave none, the one given for
all data sets, or one for each. -/
def FixedVariances (ms : ModelSettings XR) (v : Fin m → ℝ) : Prop :=
  (ms.sigma2 = none ∧ ∀ i, v i = 1) ∨ (∃ c, ms.sigma2 = some [.fin c] ∧ ∀ i, v i = c) ∨
  ms.sigma2 = some (List.ofFn (finVec v))

theorem sampled_get (i : Fin (nS flags)) :
    ((List.finRange N).filter flags)[i.val]? = some (parindOf flags i) :=
  List.getElem?_eq_getElem _

theorem StartsAt.inLimits {specs sp : Fin N → ParamSpec XR} {x : Fin (nS flags) → ℝ}
    (h : StartsAt flags specs x sp) : InLimits flags sp = InLimits flags specs := by
  funext row
  unfold InLimits
  apply propext
  refine forall_congr' fun i => forall_congr' fun k => forall_congr' fun hk => ?_
  rw [h.1 i k hk]

theorem StartsAt.sosThere {specs sp : Fin N → ParamSpec XR} {x : Fin (nS flags) → ℝ}
    (h : StartsAt flags specs x sp) (U : UserFuns XR N (nS flags) m) :
    SosThere U sp = SosThere U specs := by
  funext row ss
  unfold SosThere BelongsTo
  apply propext
  refine exists_congr fun w => and_congr_left fun _ => and_congr_right fun _ => ?_
  exact forall_congr' fun k => forall_congr' fun hk => by rw [h.2 k hk]

theorem fixedVariances_errModel {ms ms1 ms2 : ModelSettings XR} {dn : List ℕ} {nb : ℕ} {M : ErrModel XR m}
    {v : Fin m → ℝ} (hv : FixedVariances ms v) (hN : ms.N0 = none)
    (h1 : checkDependentModelSettings ms dn nb = .ok ms1) (h2 : checkWrtNsos ms1 m = .ok ms2)
    (h3 : toErrModel ms2 m = .ok M) : M.sigma2 = finVec v := by
  have hs1 : ms1.sigma2 = some (ms.sigma2.getD [lit 1]) := by
    unfold checkDependentModelSettings at h1
    obtain ⟨n', -, h1⟩ := bind_ok.1 h1
    rw [hN] at h1
    cases h1
    cases hs : ms.sigma2 <;> (dsimp only [defaultN0]; split <;> rfl)
  obtain ⟨S20, f1, n0, N0, f2, sg, sigma2, f3, N1, N2, b1, b2, b3, b4, b5, b6, b7, rfl⟩ := checkWrtNsos_ok h2
  unfold toErrModel at h3
  dsimp only at h3
  split at h3
  · rename_i hl
    cases h3
    funext i
    dsimp only
    rw [hs1] at b4
    have one : ∀ c : ℝ, sg = [.fin c] → v i = c →
        sigma2.get (i.cast hl.1.symm) = finVec v i := by
      intro c hc hvi
      rw [hc] at b5
      simp only [checkSizeOfSetting] at b5
      cases b5
      simp [finVec, hvi, lit_eq]
    rcases hv with ⟨e, hv⟩ | ⟨c, e, hv⟩ | e
    · rw [e] at b4
      exact one 1 (by rw [← Option.some.inj b4]; simp [lit_eq]) (hv i)
    · rw [e] at b4
      exact one c (Option.some.inj b4).symm (hv i)
    · rw [e] at b4
      have hsg : sg = List.ofFn (finVec v) := (Option.some.inj b4).symm
      by_cases hm1 : m = 1
      · subst hm1
        obtain rfl : i = 0 := Subsingleton.elim _ _
        exact one (v 0) (by rw [hsg]; rfl) rfl
      · have hlen : sg.length = m := by rw [hsg, List.length_ofFn]
        have : sigma2 = sg := by
          unfold checkSizeOfSetting at b5
          split at b5
          · simp at hlen; omega
          · rw [if_neg (by omega), if_neg (by omega)] at b5
            cases b5; rfl
        subst this
        simp [hsg]
  · cases h3

/-- one run: its rows are the iterates of `moveFrom` -/
theorem run_iterates {U : UserFuns XR N (nS flags) m} {sp : Fin N → ParamSpec XR} {opts : SimOpts XR}
    {extra : ExtraOpts XR (nS flags)} {ms : ModelSettings XR} {data : Data} {L : Lapack XR} {fuel : ℕ}
    {s : σ} {out : RunOut XR σ flags m}
    (h : runSimulation U G L fuel (newObj sp opts extra ms data) s false = .ok out)
    (D : IdealRng G (nS flags) μ)
    (hnames : (((List.finRange N).filter flags).map fun k => (sp k).name).Nodup)
    (hnan : ∀ k, PyFloat.isnan (sp k).theta0 = false) (hm : 0 < m)
    (hjson : extra.jsonRestart = none) (hai : opts.adaptint ≤ 0) (hu : opts.updatesigma = false)
    (hN : ms.N0 = none) {v : Fin m → ℝ} (hv : ∀ i, 0 < v i) (hfv : FixedVariances ms v)
    {x : Fin (nS flags) → ℝ} (hx : ∀ i, (sp (parindOf flags i)).theta0 = .fin (x i))
    {q : (Fin (nS flags) → ℝ) → Fin m → ℝ} {r : (Fin (nS flags) → ℝ) → ℝ}
    (hq : ∀ θ ss, SosThere U sp (finVec θ) ss → ss = finVec (q θ))
    (hr : ∀ mu sigma, UserPrior flags sp mu sigma → ∀ θ, U.priorFun (finVec θ) mu sigma = .fin (r θ))
    {lp : (Fin (nS flags) → ℝ) → Option ℝ} (hout : ∀ θ, ¬ InLimits flags sp (finVec θ) → lp θ = none)
    (hin : ∀ θ, InLimits flags sp (finVec θ) → lp θ = some (-(1 / 2) * ∑ i, q θ i / v i - 1 / 2 * r θ))
    {A : ℕ → Matrix (Fin (nS flags)) (Fin (nS flags)) ℝ} {W : ℕ → Fin (nS flags) → Fin (nS flags) → ℝ}
    (hR : out.init.cov.R = finMx (A 0))
    (hA : 1 < opts.ntry → ∃ l il, out.init.cov.RDR = .some l ∧ out.init.cov.invR = some il ∧
      ∀ k < opts.ntry.toNat, l[k]? = some (finMx (A k)) ∧ il[k]? = some (finMx (Matrix.of (W k))))
    (hlen : 1 < opts.ntry → ∀ l, out.init.cov.RDR = .some l → l.length = opts.ntry.toNat)
    (j : ℕ) (hj : (j : ℤ) < opts.nsimu) :
    out.results.chain[j]? = some (finVec ((fun p : (Fin (nS flags) → ℝ) × σ =>
      moveFrom D A W lp (max 1 opts.ntry.toNat) 0 (fun _ => p.1) p.2)^[j] (x, s)).1) := by
  obtain ⟨mu, sigma, hmu, hst⟩ := C78_stages .start hnan h
  obtain ⟨k0, mu', sigma', hmu', hk0, hlen', htr, hrows⟩ := C72_decisions .start hnames hnan h
  obtain ⟨rfl, rfl⟩ := hmu.unique hmu'
  obtain ⟨-, hs0, k0', hk0', hseq⟩ := C79_draws_in_sequence .start h
  obtain ⟨hcl, ⟨row0, hrow0, hrow0'⟩, ⟨-, hmove⟩, -⟩ := C02_chain_records_moves hjson h
  have hlim := C01_rows_within_limits .start h
  have hsos := (C03_sums_of_squares_belong_to_rows .start h).2
  have hs2 : out.results.s2chain = none := ((run_updatesigma h).1 hN hu).2
  have hlen'' : (out.final.moveLog.length : ℤ) + 1 = opts.nsimu := hlen'
  have hcl' : (out.results.chain.length : ℤ) = opts.nsimu := hcl
  obtain rfl : k0 = 0 := by omega
  have hcov0 : out.final.adaptLog = [] := by
    have := adaptLog_at h
    rw [((C14_adaptation_schedule_partial h).2 hai).1] at this
    exact List.map_eq_nil_iff.1 this
  have hsig : out.init.errModel.sigma2 = finVec v := by
    obtain ⟨o1, I, s0, hst, rfl, _⟩ := run_cov h
    obtain ⟨ms1, c1, c2, c3⟩ := hst.init.ms
    rw [hst.ms, hst.data] at c1
    exact fixedVariances_errModel hfv hN c1 c2 c3
  have hlp : IsLogPost (InLimits flags sp) (SosThere U sp) (fun th => U.priorFun th mu sigma) v lp :=
    ⟨hout, fun θ q' r' h1 h2 h3 => by
      have e1 : q' = q θ := by
        funext i
        exact fin_injective (congrFun (hq θ _ h2) i)
      have e2 : r' = r θ := by
        have := hr mu sigma hmu θ
        rw [this] at h3
        exact (fin_injective h3).symm
      rw [hin θ h1, e1, e2]⟩
  have key : ∀ j : ℕ, (j : ℤ) < opts.nsimu → ∀ z : (Fin (nS flags) → ℝ) × σ,
      z = (fun p : (Fin (nS flags) → ℝ) × σ =>
        moveFrom D A W lp (max 1 opts.ntry.toNat) 0 (fun _ => p.1) p.2)^[j] (x, s) →
      out.results.chain[j]? = some (finVec z.1) ∧
      ∀ rec, out.final.moveLog[j]? = some rec → rec.rng = z.2 := by
    intro j
    induction j with
    | zero =>
      rintro _ z rfl
      refine ⟨?_, hs0⟩
      rw [hrow0]
      congr 1
      funext i
      have := congrArg (fun l => l[i.val]?) hrow0'
      simp only [List.getElem?_map, sampled_get, Option.map_some] at this
      rw [List.getElem?_ofFn, dif_pos i.2] at this
      rw [Option.some.inj this]
      exact hx i
    | succ j ih =>
      intro hj z hz
      obtain ⟨g1, g2⟩ := ih (by omega) _ rfl
      rw [iterate_succ_apply'] at hz
      set z0 := (fun p : (Fin (nS flags) → ℝ) × σ =>
        moveFrom D A W lp (max 1 opts.ntry.toNat) 0 (fun _ => p.1) p.2)^[j] (x, s) with hz0
      obtain ⟨rec, hrec⟩ : ∃ rec, out.final.moveLog[j]? = some rec :=
        ⟨_, List.getElem?_eq_getElem (by omega)⟩
      obtain ⟨ts, hts⟩ : ∃ ts, out.final.trace[j]? = some ts :=
        ⟨_, List.getElem?_eq_getElem (by omega)⟩
      obtain ⟨f1, f2, f3, -, f5, -⟩ := hrows j rec ts hrec hts
      rw [zero_add, g1] at f1
      rw [zero_add] at f2
      have hth := (Option.some.inj f1).symm
      obtain ⟨hit, c, hc, hcR, hcRDR, hcinv⟩ := hst j rec ts hrec hts
      rw [hcov0] at hc
      obtain rfl : c = out.init.cov := hc
      obtain ⟨-, prev, row, m1, m2, hmv⟩ := hmove j ts hts
      rw [g1] at m1
      cases m1
      have hlimz : InLimits flags sp (finVec z0.1) := hlim _ (List.mem_of_getElem? g1)
      have hlpz := hin _ hlimz
      obtain ⟨ss, w, e1, e2, e3⟩ := hsos j _ g1
      rw [f2] at e1
      have hssz : rec.before.ss = finVec (q z0.1) := by
        rw [Option.some.inj e1]; exact hq _ _ ⟨w, e2, e3⟩
      have hprz : rec.before.prior = .fin (r z0.1) := by
        rw [f3, hth]; exact hr mu sigma hmu _
      have hsg : rec.before.sigma2 = finVec v := by rw [f5 (.inl hs2), hsig]
      have hF : FiniteStages (SosThere U sp) (fun th => U.priorFun th mu sigma) G rec.R rec.RDR rec.invR
          opts.ntry.toNat W := by
        refine ⟨fun θ => ⟨_, hr mu sigma hmu θ⟩, fun θ ss h => ⟨_, hq θ ss h⟩,
          fun s => ⟨D.z s, by rw [D.randn]⟩,
          fun s => ⟨D.u s, (D.range s).1, (D.range s).2, by rw [D.rand]⟩, ⟨A 0, by rw [hcR, hR]; rfl⟩, ?_, ?_⟩
        · intro hnt l hl M hM
          obtain ⟨l', il, d1, d2, d3⟩ := hA (by omega)
          rw [hcRDR] at hl
          have hll := hlen (by omega) l hl
          rw [d1] at hl
          cases hl
          obtain ⟨k, hk, rfl⟩ := List.mem_iff_getElem.1 hM
          have := (d3 k (by omega)).1
          rw [List.getElem?_eq_getElem hk] at this
          exact ⟨_, Option.some.inj this⟩
        · intro l hl k hk
          obtain ⟨l', il, d1, d2, d3⟩ := hA (by omega)
          rw [hcinv, d2] at hl
          cases hl
          exact (d3 k (by omega)).2
      obtain ⟨y, y1, y2⟩ := iteration_move hm hF D (A := A) (by rw [hcR, hR])
        (fun l hl k R h1 h2 h3 => by
          obtain ⟨l', il, d1, d2, d3⟩ := hA (by omega)
          rw [hcRDR, d1] at hl
          cases hl
          rw [(d3 k h2).1] at h3
          exact (Option.some.inj h3).symm) hv hlp hsg (x := z0.1)
        ⟨hth, v, hv, hsg, by
          unfold pointAt
          rw [hlpz]
          exact ⟨q z0.1, r z0.1, hssz, hprz, rfl⟩⟩
        (by rw [hlpz]; simp) hit (row' := row) (by rw [hth]; exact hmv)
      rw [g2 rec hrec] at y2
      have hzy : z = (y, rec.rngAfter) := hz.trans y2
      refine ⟨by rw [m2, y1, hzy], fun rec' hrec' => ?_⟩
      obtain ⟨s', k1, -, k3, -⟩ := hseq j rec hrec
      rw [k1 rec' hrec', k3 hs2, hzy]
  exact (key j hj _ rfl).1

/-- The unnormalised posterior density of the user's problem: with sums of squares `q`, minus twice the
log prior `r` and error variances `v` it is `exp(-1/2 Σ q/v - r/2)` within the limits and zero outside. -/
noncomputable def posteriorDensity (flags : Fin N → Bool) (specs : Fin N → ParamSpec XR)
    (q : (Fin (nS flags) → ℝ) → Fin m → ℝ) (r : (Fin (nS flags) → ℝ) → ℝ) (v : Fin m → ℝ) :
    (Fin (nS flags) → ℝ) → ℝ :=
  Set.indicator {θ | InLimits flags specs (finVec θ)}
    fun θ => Real.exp (-(1 / 2) * ∑ i, q θ i / v i - 1 / 2 * r θ)

/-- the posterior as a measure, not normalised -/
noncomputable def posteriorMeasure (flags : Fin N → Bool) (specs : Fin N → ParamSpec XR)
    (q : (Fin (nS flags) → ℝ) → Fin m → ℝ) (r : (Fin (nS flags) → ℝ) → ℝ) (v : Fin m → ℝ) :
    Measure (Fin (nS flags) → ℝ) :=
  volume.withDensity fun θ => ENNReal.ofReal (posteriorDensity flags specs q r v θ)

theorem measurableSet_inLimits (specs : Fin N → ParamSpec XR) :
    MeasurableSet {θ : Fin (nS flags) → ℝ | InLimits flags specs (finVec θ)} := by
  have h1 : ∀ (a : XR) (i : Fin (nS flags)),
      MeasurableSet {θ : Fin (nS flags) → ℝ | PyFloat.lt (finVec θ i) a = false} := by
    intro a i
    cases a with
    | fin b =>
      have : {θ : Fin (nS flags) → ℝ | PyFloat.lt (finVec θ i) (.fin b) = false} = {θ | b ≤ θ i} := by
        ext θ; simp [finVec]
      rw [this]
      exact measurableSet_le measurable_const (measurable_pi_apply i)
    | _ => simp [finVec, PyFloat.lt, XR.lt]
  have h2 : ∀ (a : XR) (i : Fin (nS flags)),
      MeasurableSet {θ : Fin (nS flags) → ℝ | PyFloat.lt a (finVec θ i) = false} := by
    intro a i
    cases a with
    | fin b =>
      have : {θ : Fin (nS flags) → ℝ | PyFloat.lt (.fin b) (finVec θ i) = false} = {θ | θ i ≤ b} := by
        ext θ; simp [finVec]
      rw [this]
      exact measurableSet_le (measurable_pi_apply i) measurable_const
    | _ => simp [finVec, PyFloat.lt, XR.lt]
  have : {θ : Fin (nS flags) → ℝ | InLimits flags specs (finVec θ)} =
      ⋂ i, ⋂ k, ⋂ (_ : ((List.finRange N).filter flags)[i.val]? = some k),
        ({θ | PyFloat.lt (finVec θ i) (specs k).minimum = false} ∩
         {θ | PyFloat.lt (specs k).maximum (finVec θ i) = false}) := by
    ext θ
    simp only [Set.mem_iInter, Set.mem_setOf_eq, Set.mem_inter_iff, InLimits]
  rw [this]
  exact MeasurableSet.iInter fun i => MeasurableSet.iInter fun k => MeasurableSet.iInter fun _ =>
    (h1 _ i).inter (h2 _ i)

theorem measurable_posteriorDensity {specs : Fin N → ParamSpec XR} {q : (Fin (nS flags) → ℝ) → Fin m → ℝ}
    {r : (Fin (nS flags) → ℝ) → ℝ} {v : Fin m → ℝ} (hq : Measurable q) (hr : Measurable r) :
    Measurable (posteriorDensity flags specs q r v) := by
  refine Measurable.indicator ?_ (measurableSet_inLimits specs)
  have : ∀ i, Measurable fun θ => q θ i := fun i => (measurable_pi_apply i).comp hq
  fun_prop

section logpost
variable {specs : Fin N → ParamSpec XR} {q : (Fin (nS flags) → ℝ) → Fin m → ℝ} {r : (Fin (nS flags) → ℝ) → ℝ}

open Classical in
/-- the log posterior for fixed variances -/
noncomputable def logPost (flags : Fin N → Bool) (specs : Fin N → ParamSpec XR)
    (q : (Fin (nS flags) → ℝ) → Fin m → ℝ) (r : (Fin (nS flags) → ℝ) → ℝ) (v : Fin m → ℝ)
    (θ : Fin (nS flags) → ℝ) : Option ℝ :=
  if InLimits flags specs (finVec θ) then some (-(1 / 2) * ∑ i, q θ i / v i - 1 / 2 * r θ) else none

theorem logPost_density (v : Fin m → ℝ) (θ : Fin (nS flags) → ℝ) :
    (pointAt (logPost flags specs q r v) θ).density = posteriorDensity flags specs q r v θ := by
  by_cases h : InLimits flags specs (finVec θ)
  · simp only [pointAt, Point.density, logPost, if_pos h, posteriorDensity]
    rw [Set.indicator_of_mem (by exact h)]
  · simp only [pointAt, Point.density, logPost, if_neg h, posteriorDensity]
    rw [Set.indicator_of_notMem (by exact h)]

end logpost

/-- The problem of sampling the posterior given by `q`, `r`, `v`, with a fixed proposal: the problem
started at `x` is the table `sp x`.  It is valid from every start within the limits; the user's
functions have the values `q` and `r`, whatever the start; a proposal covariance is given, nothing is
adapted and the error variances are not sampled. -/
structure FixedProblem (U : UserFuns XR N (nS flags) m) (G : Rng σ XR) (L : Lapack XR)
    (specs : Fin N → ParamSpec XR) (sp : (Fin (nS flags) → ℝ) → Fin N → ParamSpec XR) (opts : SimOpts XR)
    (extra : ExtraOpts XR (nS flags)) (ms : ModelSettings XR) (data : Data)
    (q : (Fin (nS flags) → ℝ) → Fin m → ℝ) (r : (Fin (nS flags) → ℝ) → ℝ) (v : Fin m → ℝ) : Prop where
  starts : ∀ x, StartsAt flags specs x (sp x)
  exact : ∀ x, ExactInputs G L (newObj (sp x) opts extra ms data : Obj XR flags m)
  valid : ∀ x, InLimits flags specs (finVec x) →
    ValidProblem U (newObj (sp x) opts extra ms data : Obj XR flags m)
  names : (((List.finRange N).filter flags).map fun k => (specs k).name).Nodup
  noAdaptation : opts.adaptint ≤ 0
  noSampling : opts.updatesigma = false ∧ ms.N0 = none
  covariance : extra.qcov.isSome
  noFactors : extra.RDR = none
  sosDim : 0 < m
  sos : ∀ θ ss, SosThere U specs (finVec θ) ss → ss = finVec (q θ)
  prior : ∀ x, InLimits flags specs (finVec x) → ∀ mu sigma, UserPrior flags (sp x) mu sigma →
    ∀ θ, U.priorFun (finVec θ) mu sigma = .fin (r θ)
  variances : FixedVariances ms v ∧ ∀ i, 0 < v i
  measurable : Measurable q ∧ Measurable r

/-- The rows of every run are the iterates of `moveFrom` with factors that depend only on the proposal
covariance and the scales of the stages. -/
theorem fixed_rows [IsProbabilityMeasure μ] {U : UserFuns XR N (nS flags) m} {L : Lapack XR}
    {specs : Fin N → ParamSpec XR} {sp : (Fin (nS flags) → ℝ) → Fin N → ParamSpec XR} {opts : SimOpts XR}
    {extra : ExtraOpts XR (nS flags)} {ms : ModelSettings XR} {data : Data}
    {q : (Fin (nS flags) → ℝ) → Fin m → ℝ} {r : (Fin (nS flags) → ℝ) → ℝ} {v : Fin m → ℝ}
    (H : FixedProblem U G L specs sp opts extra ms data q r v) (D : IdealRng G (nS flags) μ)
    {x0 : Fin (nS flags) → ℝ} (hx0 : InLimits flags specs (finVec x0)) :
    ∃ (qc : Qcov XR) (Q : Mat XR (nS flags)) (A : ℕ → Matrix (Fin (nS flags)) (Fin (nS flags)) ℝ)
      (W : ℕ → Fin (nS flags) → Fin (nS flags) → ℝ),
      extra.qcov = some qc ∧ setupRMatrix L qc (parindOf flags) = .ok (finMx (A 0), Q) ∧
      (∀ k < max 1 opts.ntry.toNat, A k * Matrix.of (W k) = 1) ∧
      (∃ ds : List ℝ, extra.drscale = ds.map .fin ∧
        ∀ k, A k = (if 1 < opts.ntry then (stageScale ds k)⁻¹ • A 0 else A 0) ∧ W k = (A k)⁻¹) ∧
      ∀ x s fuel out, InLimits flags specs (finVec x) →
        runSimulation U G L fuel (newObj (sp x) opts extra ms data) s false = .ok out →
        ∀ j : ℕ, (j : ℤ) < opts.nsimu → out.results.chain[j]? = some (finVec
          ((fun p : (Fin (nS flags) → ℝ) × σ => moveFrom D A W (logPost flags specs q r v)
            (max 1 opts.ntry.toNat) 0 (fun _ => p.1) p.2)^[j] (x, s)).1) := by
  classical
  obtain ⟨s0⟩ := nonempty_of_isProbabilityMeasure μ
  -- the factor
  obtain ⟨qc, hqc⟩ := Option.isSome_iff_exists.1 H.covariance
  have hcov : ∀ x (s : σ) I st o1, InLimits flags specs (finVec x) →
      setupSimulator U L (newObj (sp x) opts extra ms data) s false = .ok (o1, I, st) →
      ∃ Q, setupRMatrix L qc (parindOf flags) = .ok (I.cov.R, Q) := by
    intro x s I st o1 hx hset
    obtain ⟨-, -, -, -, -, -, -, hjr, -⟩ := setup_fresh hset
    have ho := hjr (H.valid x hx).noRestart
    have x1 : o1.extra.RDR = none := by rw [ho]; exact H.noFactors
    have x2 : o1.extra.qcov = some qc := by rw [ho]; exact hqc
    obtain ⟨_, ⟨R', h1, h2⟩, _⟩ := initCovState_ok (initializeSimulation_cov (setupSimulator_init hset))
    rw [x2] at h1
    refine ⟨I.cov.qcov, ?_⟩
    split at h2
    · obtain ⟨l, il, g1, -⟩ := h2
      rw [x1] at g1
      unfold setupRDRMatrix at g1
      dsimp only at g1
      obtain ⟨iR, _, g1⟩ := bind_ok.1 g1
      obtain ⟨⟨l', il'⟩, _, g1⟩ := bind_ok.1 g1
      have : R' = I.cov.R := congrArg (fun x => x.1) (Except.ok.inj g1)
      rw [← this]; exact h1
    · rw [h2.1]; exact h1
  obtain ⟨I0, st0, t0, Q0, hset0, ht0, hQ0, hpd0⟩ := valid_setup (H.exact x0) (H.valid x0 hx0) s0
  obtain ⟨R, hR, hunit⟩ := (start_fin (fuel := 0) (H.exact x0) hset0 nofun (H.valid x0 hx0).delayed ht0 hQ0 hpd0).2.cov.R
  rw [(setup_start hset0).1.cov] at hR
  obtain ⟨Q1, hQ1⟩ := hcov _ _ _ _ _ hx0 hset0
  obtain ⟨ds, hds, hds0⟩ := (H.exact x0).drscale
  have hds : extra.drscale = ds.map .fin := hds
  let A : ℕ → Matrix (Fin (nS flags)) (Fin (nS flags)) ℝ := fun k =>
    if 1 < opts.ntry then (stageScale ds k)⁻¹ • R else R
  let W : ℕ → Fin (nS flags) → Fin (nS flags) → ℝ := fun k =>
    ((A k)⁻¹ : Matrix (Fin (nS flags)) (Fin (nS flags)) ℝ)
  set lp := logPost flags specs q r v with hlpdef
  have hA0 : A 0 = R := by
    by_cases h : 1 < opts.ntry <;> simp [A, h, stageScale]
  have hSF : ∀ x s, InLimits flags specs (finVec x) → ∀ fuel out,
      runSimulation U G L fuel (newObj (sp x) opts extra ms data) s false = .ok out →
      out.init.cov.R = finMx R ∧ (1 < opts.ntry → StageFactors ds opts.ntry.toNat R out.init.cov) := by
    intro x s hx fuel out hrun
    obtain ⟨o1, I, st, hst, rfl, _, hset, _⟩ := run_cov hrun
    obtain ⟨Q2, hQ2⟩ := hcov _ _ _ _ _ hx hset
    rw [hQ1] at hQ2
    have hRR : out.init.cov.R = finMx R := by
      rw [← hR]; exact (congrArg Prod.fst (Except.ok.inj hQ2)).symm
    refine ⟨hRR, fun hnt => C17_start (H.exact x).lapack hset H.noFactors ((H.valid x hx).delayed hnt).method
      (by change 0 < opts.ntry; omega) hds hds0 hRR⟩
  have hAW : ∀ k < max 1 opts.ntry.toNat, A k * Matrix.of (W k) = 1 := by
    intro k hk
    change A k * (A k)⁻¹ = 1
    by_cases hnt : 1 < opts.ntry
    · obtain ⟨l, il, -, -, -, -, h6⟩ := C17_start (H.exact x0).lapack hset0 H.noFactors
        ((H.valid x0 hx0).delayed hnt).method (by change 0 < opts.ntry; omega) hds hds0 hR
      change ∀ k < opts.ntry.toNat, _ at h6
      obtain ⟨b, -, -, hb⟩ := h6 k (by omega)
      simp only [A, if_pos hnt]
      rw [Matrix.inv_eq_right_inv hb, hb]
    · simp only [A, if_neg hnt]
      exact Matrix.mul_nonsing_inv _ ((Matrix.isUnit_iff_isUnit_det _).1 hunit)
  refine ⟨qc, Q1, A, W, hqc, by rw [hA0, ← hR]; exact hQ1, hAW, ⟨ds, hds, fun k => ⟨by rw [hA0], rfl⟩⟩, ?_⟩
  intro x s fuel out hx hrun j hj
  have hS := H.starts x
  obtain ⟨hRR, hsf⟩ := hSF x s hx fuel out hrun
  have hval := H.valid x hx
  have hlen : 1 < opts.ntry → ∀ l, out.init.cov.RDR = .some l → l.length = opts.ntry.toNat := by
    intro hnt l hl
    obtain ⟨l', il, e1, e2, e3, -⟩ := hsf hnt
    rw [e1] at hl
    cases hl; exact e3
  refine run_iterates hrun D ?_ ?_ H.sosDim hval.noRestart H.noAdaptation H.noSampling.1 H.noSampling.2
    H.variances.2 H.variances.1 ?_ (q := q) (r := r) ?_ (H.prior x hx) (lp := lp) ?_ ?_ (A := A) (W := W)
    (by rw [hA0, hRR]) ?_ hlen j hj
  · have : (((List.finRange N).filter flags).map fun k => (sp x k).name) =
        ((List.finRange N).filter flags).map fun k => (specs k).name := by
      apply List.map_congr_left
      intro k hk
      obtain ⟨i, rfl⟩ := exists_parindOf (flags := flags) (List.mem_filter.1 hk).2
      rw [hS.1 i _ (sampled_get i)]
    rw [this]; exact H.names
  · intro k
    obtain ⟨t, ht⟩ := hval.initial k
    change (sp x k).theta0 = _ at ht
    rw [ht]; rfl
  · intro i
    rw [hS.1 i _ (sampled_get i)]
  · intro θ ss hs
    rw [hS.sosThere] at hs
    exact H.sos θ ss hs
  · intro θ hθ
    rw [hS.inLimits] at hθ
    exact if_neg hθ
  · intro θ hθ
    rw [hS.inLimits] at hθ
    exact if_pos hθ
  · intro hnt
    obtain ⟨l, il, e1, e2, e3, e4, e5⟩ := hsf hnt
    refine ⟨l, il, e1, e2, fun k hk => ?_⟩
    obtain ⟨b, b1, b2, b3⟩ := e5 k hk
    have hAk : A k = (stageScale ds k)⁻¹ • R := if_pos hnt
    refine ⟨by rw [hAk]; exact b1, ?_⟩
    rw [b2]
    congr 2
    change b = (A k)⁻¹
    rw [hAk]
    exact (Matrix.inv_eq_right_inv b3).symm

/-- **C82**, the transition.  There is one map of parameter values and generator state that keeps the
product of the posterior and the law of the generator state, and the rows of every run are its
iterates. -/
theorem C82_transition [IsProbabilityMeasure μ] {U : UserFuns XR N (nS flags) m} {L : Lapack XR}
    {specs : Fin N → ParamSpec XR} {sp : (Fin (nS flags) → ℝ) → Fin N → ParamSpec XR} {opts : SimOpts XR}
    {extra : ExtraOpts XR (nS flags)} {ms : ModelSettings XR} {data : Data}
    {q : (Fin (nS flags) → ℝ) → Fin m → ℝ} {r : (Fin (nS flags) → ℝ) → ℝ} {v : Fin m → ℝ}
    (H : FixedProblem U G L specs sp opts extra ms data q r v) (D : IdealRng G (nS flags) μ) :
    ∃ next : (Fin (nS flags) → ℝ) × σ → (Fin (nS flags) → ℝ) × σ,
      MeasurePreserving next ((posteriorMeasure flags specs q r v).prod μ)
        ((posteriorMeasure flags specs q r v).prod μ) ∧
      ∀ x s fuel out, InLimits flags specs (finVec x) →
        runSimulation U G L fuel (newObj (sp x) opts extra ms data) s false = .ok out →
        ∀ j : ℕ, (j : ℤ) < opts.nsimu → out.results.chain[j]? = some (finVec (next^[j] (x, s)).1) := by
  by_cases hne : ∃ x : Fin (nS flags) → ℝ, InLimits flags specs (finVec x)
  swap
  · exact ⟨id, MeasurePreserving.id _, fun x s fuel out hx _ => absurd ⟨x, hx⟩ hne⟩
  obtain ⟨x0, hx0⟩ := hne
  obtain ⟨-, -, A, W, -, -, hAW, -, hrows⟩ := fixed_rows H D hx0
  refine ⟨_, ?_, hrows⟩
  have hdens : (fun θ => (pointAt (logPost flags specs q r v) θ).density) = posteriorDensity flags specs q r v :=
    funext (logPost_density v)
  have := moveFrom_invariant D (lp := logPost flags specs q r v) (A := A) (W := W) (K := max 1 opts.ntry.toNat)
    (by rw [hdens]; exact measurable_posteriorDensity H.measurable.1 H.measurable.2) hAW
  simp only [congrFun hdens] at this
  exact this

/-- **C82.** Let the initial values of a valid problem with a fixed proposal be distributed as the
posterior and the generator be ideal.  Then every row of the chain is distributed as the posterior, and
the chain is stationary: the rows `j, …, j + k` have the joint law of the rows `0, …, k`. -/
theorem C82_posterior_kept [IsProbabilityMeasure μ] {U : UserFuns XR N (nS flags) m} {L : Lapack XR}
    {specs : Fin N → ParamSpec XR} {sp : (Fin (nS flags) → ℝ) → Fin N → ParamSpec XR} {opts : SimOpts XR}
    {extra : ExtraOpts XR (nS flags)} {ms : ModelSettings XR} {data : Data}
    {q : (Fin (nS flags) → ℝ) → Fin m → ℝ} {r : (Fin (nS flags) → ℝ) → ℝ} {v : Fin m → ℝ}
    (H : FixedProblem U G L specs sp opts extra ms data q r v) (D : IdealRng G (nS flags) μ) (fuel : ℕ) :
    (∀ x s, InLimits flags specs (finVec x) →
      ∃ out, runSimulation U G L fuel (newObj (sp x) opts extra ms data) s false = .ok out) ∧
    ∃ row : ℕ → (Fin (nS flags) → ℝ) × σ → Fin (nS flags) → ℝ,
      (∀ x s out, InLimits flags specs (finVec x) →
        runSimulation U G L fuel (newObj (sp x) opts extra ms data) s false = .ok out →
        ∀ j : ℕ, (j : ℤ) < opts.nsimu → out.results.chain[j]? = some (finVec (row j (x, s)))) ∧
      (∀ j, Measurable (row j)) ∧
      (∀ p, row 0 p = p.1) ∧
      (∀ j, Measure.map (row j) ((posteriorMeasure flags specs q r v).prod μ) = posteriorMeasure flags specs q r v) ∧
      ∀ j k, Measure.map (fun p (i : Fin (k + 1)) => row (j + i) p) ((posteriorMeasure flags specs q r v).prod μ) =
        Measure.map (fun p (i : Fin (k + 1)) => row i p) ((posteriorMeasure flags specs q r v).prod μ) := by
  obtain ⟨next, hmp, hrows⟩ := C82_transition H D
  refine ⟨fun x s hx => ?_, fun j p => (next^[j] p).1, fun x s out hx hrun j hj => hrows x s fuel out hx hrun j hj,
    fun j => measurable_fst.comp (hmp.iterate j).measurable, fun p => rfl, fun j => ?_, fun j k => ?_⟩
  · obtain ⟨out, h, -⟩ := C76_fixed_variance (fuel := fuel) (H.exact x) (H.valid x hx) s H.noSampling.1 H.noSampling.2
    exact ⟨out, h⟩
  · change Measure.map (Prod.fst ∘ next^[j]) _ = _
    rw [← Measure.map_map measurable_fst (hmp.iterate j).measurable, (hmp.iterate j).map_eq]
    rw [Measure.map_fst_prod, measure_univ, one_smul]
  · have hm : Measurable fun (p : (Fin (nS flags) → ℝ) × σ) (i : Fin (k + 1)) => (next^[(i : ℕ)] p).1 :=
      measurable_pi_iff.2 fun i => measurable_fst.comp (hmp.iterate i).measurable
    have : (fun (p : (Fin (nS flags) → ℝ) × σ) (i : Fin (k + 1)) => (next^[j + (i : ℕ)] p).1) =
        (fun p (i : Fin (k + 1)) => (next^[(i : ℕ)] p).1) ∘ next^[j] := by
      funext p i
      simp only [comp_apply]
      rw [← iterate_add_apply, Nat.add_comm]
    rw [this, ← Measure.map_map hm (hmp.iterate j).measurable, (hmp.iterate j).map_eq]

end run

/-! ### Example -/

/-- `XRun.specs true` started at `x` -/
noncomputable def XRun.specsAt (x : Fin (nS XRun.flags) → ℝ) : Fin 1 → ParamSpec XR := fun k =>
  { XRun.specs true k with theta0 := .fin (x ⟨0, by decide⟩) }

/-- The posterior `exp(-θ²/2)` on `[-10, 10]`, sampled with two stages of delayed rejection: the hypotheses
of C82 are met. -/
theorem XRun.fixedProblem (k : ℤ) (hk : 1 < k) :
    FixedProblem (m := 1) XRun.user (coinRng (nS XRun.flags)) exactLapack
    (XRun.specs true) XRun.specsAt (defineSimulationOptions { nsimu := k, method := .dr })
    (XRun.extra 1 1) XRun.settings XRun.data (fun θ _ => θ ⟨0, by decide⟩ * θ ⟨0, by decide⟩) (fun _ => 0)
    (fun _ => 1) where
  starts x := by
    refine ⟨fun i k _ => ?_, fun k hk => by cases hk⟩
    have : i = ⟨0, by decide⟩ := by
      have := i.2
      have h1 := XRun.nS_flags
      exact Fin.ext (by simp; omega)
    rw [this]; rfl
  exact x := {
    lapack := exactLapack_ok
    draws := fun _ => ⟨_, rfl⟩
    adjust := ⟨1, rfl⟩
    burnin := ⟨10, rfl, by norm_num⟩
    drscale := ⟨[5], rfl, by simp⟩
    noRam := rfl
    weight := .inl rfl
    scale := ⟨_, .inl ⟨rfl, rfl⟩⟩
    RDR := nofun }
  valid x hx := {
    nsimu := hk
    sampled := by decide
    initial := fun _ => ⟨_, rfl⟩
    limits := fun k _ => by
      obtain rfl : k = 0 := Subsingleton.elim _ _
      have h := hx ⟨0, by decide⟩ 0 (by decide)
      simp [XRun.specs, finVec] at h
      simpa [newObj, XRun.specsAt, XRun.specs] using h
    localFit := .inl rfl
    sos := fun v => by simp [XRun.user]
    data := show XRun.data.n ≠ [] by decide
    settings := ⟨fun v hv => by cases hv; exact .inl rfl, nofun, nofun, .inr (.inl rfl),
      .inl (show XRun.data.n.length ≤ 1 by decide)⟩
    settingsFresh := rfl
    observations := rfl
    covariance := .inl ⟨fun _ => 1, rfl, fun _ => one_pos⟩
    drscale := by change [XR.fin 5] ≠ []; simp
    factors := nofun
    delayed := fun _ => ⟨.inl rfl, rfl, fun h => absurd h (show ¬ (0 : ℤ) < 0 by decide)⟩
    noRestart := rfl }
  names := by decide
  noAdaptation := show (0 : ℤ) ≤ 0 by decide
  noSampling := ⟨rfl, rfl⟩
  covariance := rfl
  noFactors := rfl
  sosDim := one_pos
  sos θ ss hs := by
    obtain ⟨v, hv, hs⟩ := hs
    unfold SosValue XRun.user at hs
    simp only [if_true, reduceCtorEq, false_and, or_false] at hs
    have h0 := congrArg (fun l => l[0]?) hv.1
    rw [← Except.ok.inj hs]
    funext k
    have h1 : v 0 = finVec θ ⟨0, by decide⟩ := by
      have e1 : (((List.finRange 1).filter XRun.flags).map v)[0]? = some (v 0) := rfl
      have e2 : (List.ofFn (finVec θ))[0]? = some (finVec θ ⟨0, by decide⟩) := by
        rw [List.getElem?_ofFn, dif_pos (by decide)]
      exact Option.some.inj (e1.symm.trans (h0.trans e2))
    rw [h1, finVec, fin_mul]
    rfl
  prior _ _ _ _ _ _ := rfl
  variances := ⟨.inr (.inl ⟨1, rfl, fun _ => rfl⟩), fun _ => one_pos⟩
  measurable := ⟨by fun_prop, measurable_const⟩

/-- C82 for that problem: 1000 rows from every start in `[-10, 10]`, the posterior is not trivial, and row 999
is distributed as the posterior when the start is. -/
example : ∃ row : ℕ → (Fin (nS XRun.flags) → ℝ) × CoinState (nS XRun.flags) → Fin (nS XRun.flags) → ℝ,
    (∀ s, ∃ out, runSimulation XRun.user (coinRng (nS XRun.flags)) exactLapack 0
      (newObj (m := 1) (XRun.specsAt fun _ => 3) (defineSimulationOptions { nsimu := 1000, method := .dr })
        (XRun.extra 1 1) XRun.settings XRun.data) s false = .ok out ∧
      out.results.chain[999]? = some (finVec (row 999 (fun _ => 3, s)))) ∧
    Measure.map (row 999) ((posteriorMeasure (m := 1) XRun.flags (XRun.specs true)
      (fun θ _ => θ ⟨0, by decide⟩ * θ ⟨0, by decide⟩) (fun _ => 0) (fun _ => 1)).prod (coinLaw _)) =
      posteriorMeasure (m := 1) XRun.flags (XRun.specs true)
        (fun θ _ => θ ⟨0, by decide⟩ * θ ⟨0, by decide⟩) (fun _ => 0) (fun _ => 1) ∧
    posteriorDensity (m := 1) XRun.flags (XRun.specs true)
      (fun θ _ => θ ⟨0, by decide⟩ * θ ⟨0, by decide⟩) (fun _ => 0) (fun _ => 1) (fun _ => 3) =
      Real.exp (-(9 / 2)) := by
  obtain ⟨h1, row, h2, -, -, h3, -⟩ := C82_posterior_kept (XRun.fixedProblem 1000 (by decide)) (coinIdeal _) 0
  have hin : InLimits XRun.flags (XRun.specs true) (finVec fun _ => 3) := by
    intro i k _
    simp [XRun.specs, finVec]
    norm_num
  refine ⟨row, fun s => ?_, h3 999, ?_⟩
  · obtain ⟨out, h⟩ := h1 _ s hin
    exact ⟨out, h, h2 _ s out hin h 999 (show (999 : ℤ) < 1000 by decide)⟩
  · unfold posteriorDensity
    rw [Set.indicator_of_mem (by exact hin)]
    congr 1
    simp
    norm_num

end Verif
