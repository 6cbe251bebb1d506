import Verif.Lemmas.StageRun
import Verif.Spec.Acceptance
import Verif.Props.Decisions
import Verif.Props.DelayedRejection
import Verif.Props.Factors

/-! # C78, C79: every stage of every iteration, and the use of random numbers -/

set_option linter.unusedSectionVars false

namespace Verif

section general
variable {F σ : Type} [PyFloat F] {N m : ℕ} {flags : Fin N → Bool}

/-- The user's function gives `ss` at the sampled values `theta`, all other parameters at the values the
user gave. -/
def SosThere (U : UserFuns F N (nS flags) m) (specs : Fin N → ParamSpec F) (theta : Vec F (nS flags))
    (ss : Vec F m) : Prop :=
  ∃ v, BelongsTo flags specs theta v ∧ SosValue U v ss

/-- **C78.** Whatever the history of an object, in every iteration of a run the proposals of all stages are
those of `Iteration`, with the user's limits, function and prior: stage `k` proposes the
row plus a normal draw times the factor of stage `k`, a proposal outside the limits is
rejected, a later stage is accepted exactly if the acceptance probability of the path of all proposals
so far is at least 1 or above the uniform draw, stages follow one another until one is
accepted or `ntry` have been made.  The factors of the stages and the inverses that enter the acceptance
probability are those the last adaptation before the iteration left. -/
theorem C78_stages {U : UserFuns F N (nS flags) m} {specs : Fin N → ParamSpec F}
    {opts : SimOpts F} {extra : ExtraOpts F (nS flags)} {ms : ModelSettings F} {data : Data}
    {o : Obj F flags m} (ho : Reachable U (newObj specs opts extra ms data) o)
    (hnan : ∀ k, PyFloat.isnan (specs k).theta0 = false)
    {G : Rng σ F} {L : Lapack F} {fuel : ℕ} {rng : σ} {up : Bool} {out : RunOut F σ flags m}
    (h : runSimulation U G L fuel o rng up = .ok out) :
    ∃ mu sigma, UserPrior flags specs mu sigma ∧
      ∀ j r ts, out.final.moveLog[j]? = some r → out.final.trace[j]? = some ts →
        Iteration (InLimits flags specs) (SosThere U specs) (fun th => U.priorFun th mu sigma) G
          r.before r.R r.RDR r.invR o.opts.ntry.toNat r.rng ts r.rngAfter ∧
        ∃ c, c = ((out.final.adaptLog.filter fun a => decide (a.at_ ≤ j)).getLast?.map
            fun a => a.after).getD out.init.cov ∧
          r.R = c.R ∧ r.RDR = c.RDR ∧ r.invR = c.invR := by
  have hinv := reachable_objInv rfl ho
  obtain ⟨mu, sigma, hmu, hprior⟩ := C71_prior_kept rfl hnan ho h
  obtain ⟨o1, I, s0, h1, h2, h3, h4, h5⟩ := runSimulation_ok h
  rw [h4] at hprior ⊢
  have hst := (setup_start h1).1
  have hsame := hinv.same.trans hst.same
  obtain ⟨hn, s1, ⟨hP, hR⟩, hfin⟩ := executeSimulator_inv
    (E := ⟨I.problem, G, L, runOpts I.opts o1.extra, fuel⟩)
    (P := fun i s => StageInv ⟨I.problem, G, L, runOpts I.opts o1.extra, fuel⟩ s0 i s ∧
      ∀ j r, s.moveLog[j]? = some r →
        r.R = (covAfter s0.cov (s.adaptLog.filter fun a => decide (a.at_ ≤ j))).R)
    ⟨⟨by simp [loopStart, hst.moveLog], by simp [loopStart, hst.trace], fun _ _ => rfl,
        by simp [loopStart, hst.adaptLog], by simp [loopStart, hst.adaptLog, covAfter],
        by simp [loopStart, hst.moveLog]⟩, by simp [loopStart, hst.moveLog]⟩
    (fun i a b p hi _ hP hp => ⟨hP.1.step hp, fun j r hr => by
      have hlen := hP.1.len
      have hfil : ∀ j', j' < i → b.adaptLog.filter (fun x => decide (x.at_ ≤ j')) =
          a.adaptLog.filter (fun x => decide (x.at_ ≤ j')) := by
        intro j' hj'
        rw [hp.adaptLog, List.filter_append]
        split
        · simp; omega
        · simp
      rw [hp.moveLog] at hr
      by_cases hj : j + 1 < i
      · rw [List.getElem?_append_left (by omega)] at hr
        rw [hfil j (by omega)]
        exact hP.2 j r hr
      · have hj' : j + 1 = i := by
          have := (List.getElem?_eq_some_iff.1 hr).1
          simp at this
          omega
        rw [List.getElem?_append_right (by omega), show j - a.moveLog.length = 0 by omega] at hr
        simp only [List.getElem?_cons_zero, Option.some.injEq] at hr
        have hall : a.adaptLog.filter (fun x => decide (x.at_ ≤ j)) = a.adaptLog := by
          rw [List.filter_eq_self]
          intro x hx
          have := hP.1.at_ x hx
          simp; omega
        rw [hfil j (by omega), hall, ← hP.1.cov, ← hr]⟩) h2
  have e3 : out.final.moveLog = s1.moveLog := by rw [hfin]
  have e4 : out.final.trace = s1.trace := by rw [hfin]
  have e5 : out.final.adaptLog = s1.adaptLog := by rw [hfin]
  refine ⟨mu, sigma, hmu, fun j r ts hr hts => ?_⟩
  rw [e3] at hr
  rw [e4] at hts
  obtain ⟨g1, g2, g3⟩ := hP.moves j r ts hr hts
  have g0 := hR j r hr
  rw [hst.cov] at g0 g2 g3
  refine ⟨?_, _, rfl, by rw [g0, e5]; rfl, by rw [g2, e5]; rfl, by rw [g3, e5]; rfl⟩
  have hnt : (runOpts I.opts o1.extra).ntry = o.opts.ntry.toNat := by
    change I.opts.ntry.toNat = _
    rw [hst.init.opts, hst.opts]; rfl
  dsimp only at g1
  rw [hnt] at g1
  refine g1.congr (fun t => ?_) (fun t ss hin hs => ?_) hprior
  · unfold InsideOf
    rw [hst.init.lower, hst.init.upper]
    constructor
    · intro hout i k hk
      have := inLimits_of hout i k hk
      rwa [hsame.minimum, hsame.maximum] at this
    · intro hin
      rw [isOutside_eq_false]
      intro i
      have := hin i (parindOf flags i) (List.getElem?_eq_getElem _)
      unfold atParind
      dsimp only
      rw [hsame.minimum, hsame.maximum]
      exact this
  · obtain ⟨val, d1, d2⟩ := hs
    rw [hst.init.parind] at d1 d2
    rw [hst.init.style1, hst.init.sosFun] at d2
    refine ⟨_, belongsTo_of (v := writeAt (parindOf flags) t val)
      (fun i => writeAt_sampled (parindOf_injective flags) i) (fun k hk => ?_), d2⟩
    rw [writeAt_fixed (not_parindOf hk), d1 k (not_parindOf hk), hst.world, hst.init.value,
      hsame.fixed k hk]
    rfl

/-- **C79.** A run draws its random numbers one after the other, each from the state in which the draw
before left the generator: the first iteration starts from the state the run was given, the proposals
of an iteration pass the state on from draw to draw (`Iteration` in C78, from `r.rng` to `r.rngAfter`),
and the next iteration (after the last one: the caller) finds the state they left, or, if the error
variance is sampled, the state the draws of the new variances left, which start from there and
use the sums of squares of the new row. -/
theorem C79_draws_in_sequence {U : UserFuns F N (nS flags) m} {specs : Fin N → ParamSpec F}
    {opts : SimOpts F} {extra : ExtraOpts F (nS flags)} {ms : ModelSettings F} {data : Data}
    {o : Obj F flags m} (ho : Reachable U (newObj specs opts extra ms data) o)
    {G : Rng σ F} {L : Lapack F} {fuel : ℕ} {rng : σ} {up : Bool} {out : RunOut F σ flags m}
    (h : runSimulation U G L fuel o rng up = .ok out) :
    (out.final.moveLog = [] → out.final.world.rng = rng) ∧
    (∀ r, out.final.moveLog[0]? = some r → r.rng = rng) ∧
    ∃ k0, k0 + out.final.moveLog.length + 1 = out.results.chain.length ∧
      ∀ j r, out.final.moveLog[j]? = some r →
      ∃ s', (∀ r', out.final.moveLog[j + 1]? = some r' → r'.rng = s') ∧
        (j + 1 = out.final.moveLog.length → out.final.world.rng = s') ∧
        (out.results.s2chain = none → s' = r.rngAfter) ∧
        ∀ c, out.results.s2chain = some c → ∃ ss x,
          out.results.sschain[k0 + j + 1]? = some ss ∧ c[k0 + j + 1]? = some x ∧
          VarianceDraws G fuel out.init.errModel.N0 (out.init.errModel.S20.read r.before.sigma2) ss
            out.init.errModel.N r.rngAfter x s' := by
  have hinv := reachable_objInv rfl ho
  obtain ⟨o1, I, s0, h1, h2, h3, h4, h5⟩ := runSimulation_ok h
  rw [h4]
  have hst := (setup_start h1).1
  obtain ⟨_, _, _, _, _, hc, hss, hs2, _⟩ := generateResults_ok h3
  have hrng : s0.world.rng = rng := by rw [hst.world]; exact hst.init.rng
  obtain ⟨hidx, hlen⟩ : (I.opts.updatesigma = false → s0.s2chain = none) ∧
      s0.chain.length = s0.chainIndex + I.opts.nsimu.toNat := by
    cases up with
    | true =>
      obtain ⟨_, hpos, hci, hch, _, e, _, _, ⟨res, hr, _⟩, _⟩ := setup_continue h1
      refine ⟨fun hu => by rw [e, hu]; rfl, ?_⟩
      rw [hch, hci, List.length_append, hinv.len (by rw [hr]; rfl)]
      simp [zeroRows]; omega
    | false =>
      obtain ⟨_, _, hci, hch, _, e, _⟩ := setup_fresh h1
      exact ⟨fun hu => by rw [e, hu]; rfl, by rw [hch, hci]; simp [zeroRows]⟩
  obtain ⟨hn, s1, ⟨hP, hcl⟩, hfin⟩ := executeSimulator_inv
    (E := ⟨I.problem, G, L, runOpts I.opts o1.extra, fuel⟩)
    (P := fun i s => RngInv ⟨I.problem, G, L, runOpts I.opts o1.extra, fuel⟩ s0 i s ∧
      s.chain.length = s0.chain.length)
    ⟨⟨rfl, by simp [loopStart, hst.moveLog], fun _ => rfl, by simp [loopStart, hst.moveLog], rfl, rfl, rfl,
        fun _ => by
          change s0.errModel.sigma2 = s0.oldSet.sigma2
          rw [hst.errModel, hst.oldSet, hst.init.sigma2],
        by simp [loopStart, hst.moveLog]⟩, rfl⟩
    (fun i a b p hi _ hP hp => ⟨hP.1.step hp, by rw [hp.chain]; simpa using hP.2⟩) h2
  have hN : (runOpts I.opts o1.extra).nsimu = I.opts.nsimu.toNat := rfl
  have e0 : out.results.chain = s1.chain := by rw [hc, hfin]
  have e1 : out.results.sschain = s1.sschain := by rw [hss, hfin]
  have e2 : out.results.s2chain = s1.s2chain := by rw [hs2, hfin]
  have e3 : out.final.moveLog = s1.moveLog := by rw [hfin]
  have e4 : out.final.world = s1.world := by rw [hfin]
  have hsigma : I.opts.updatesigma = false ↔ out.results.s2chain = none := by
    constructor
    · intro hu
      rw [hs2, (executeSimulator_no_sigma (E := ⟨I.problem, G, L, runOpts I.opts o1.extra, fuel⟩)
        hu h2).2, hidx hu]
    · intro hnone
      by_contra hu
      have := executeSimulator_sigma (E := ⟨I.problem, G, L, runOpts I.opts o1.extra, fuel⟩)
        (show I.opts.updatesigma = true by simpa using hu) h2
      rw [← hs2, hnone] at this
      cases this
  rw [e3, e4]
  refine ⟨fun h => (hP.first h).trans hrng, fun r hr => (hP.first' r hr).trans hrng, s0.chainIndex, ?_, ?_⟩
  · have hlen1 := hP.len
    dsimp only at hlen1 hn
    rw [hN] at hlen1 hn
    rw [e0, hcl, hlen]; omega
  · intro j r hr
    obtain ⟨s', g1, g2, g3, g4⟩ := hP.next j r hr
    refine ⟨s', g1, g2, fun hnone => g4 (hsigma.2 hnone), fun c hcs => ?_⟩
    have hu : I.opts.updatesigma = true := by
      rw [← Bool.not_eq_false, hsigma, hcs]; simp
    obtain ⟨c', ss, x, c1, c2, c3, c4⟩ := g3 hu
    rw [← e2, hcs] at c1
    cases c1
    rw [hst.errModel] at c4
    exact ⟨ss, x, by rw [e1]; exact c2, c3, c4⟩

end general

/-! ### Exact arithmetic -/

open XR Finset

section exact
variable {σ : Type} {N n m : ℕ}

/-- **C78**, acceptance probability.  For every path that starts inside the limits and none of whose
rejected proposals was certain to be accepted, the number `alphafun` computes is the delayed-rejection
acceptance probability of the literature, with the densities and Gaussian proposals of the points the
parameter sets of the path stand for. -/
theorem C78_acceptance_probability (hm : 0 < m) {invR : List (Mat XR n)}
    {W : ℕ → Fin n → Fin n → ℝ} (l : ℕ) :
    (∀ k < l, invR[k]? = some fun i j => .fin (W k i j)) →
    ∀ {S : ℕ → ParamSet XR n m} {P : ℕ → Point n}, (∀ k ≤ l + 1, Represents (S k) (P k)) →
    (P 0).logpost ≠ none → (∀ k < l, drAlpha W k P ≠ 1) →
    AlphaIs invR S (l + 1) (drAlpha W l P) := by
  induction l using Nat.strong_induction_on with
  | _ l ih =>
    intro hW S P hS hfirst hrej
    obtain ⟨a, b, ha, hb, hval⟩ := C10_alpha_well_defined hm l hW hS
    have hak : ∀ k < l, a k = drAlpha W k P := fun k hk =>
      AlphaIs.unique (ha k hk.le).1 (ih k hk (fun i hi => hW i (by omega)) (fun i hi => hS i (by omega))
        hfirst fun i hi => hrej i (by omega))
    obtain ⟨-, hv⟩ := hval fun k hk => by rw [hak k hk]; exact hrej k hk
    have hv := (hv hfirst).2
    have e1 : ∏ k ∈ range l, (1 - a k) = ∏ k : Fin l, (1 - drAlpha W k P) := by
      rw [Finset.prod_range]
      exact Finset.prod_congr rfl fun k _ => by rw [hak k k.isLt]
    have e2 : (P (l + 1)).logpost ≠ none →
        ∏ k ∈ range l, (1 - b k) = ∏ k : Fin l, (1 - drAlpha W k fun i => P (l + 1 - i)) := by
      intro hlast
      have hbk : ∀ k < l, (∀ i < k, drAlpha W i (fun i => P (l + 1 - i)) ≠ 1) →
          b k = drAlpha W k fun i => P (l + 1 - i) := fun k hk hr =>
        AlphaIs.unique (hb k hk).1 (ih k hk (fun i hi => hW i (by omega)) (P := fun i => P (l + 1 - i))
          (fun i hi => hS _ (by omega)) hlast hr)
      rw [Finset.prod_range]
      by_cases hall : ∀ k < l, drAlpha W k (fun i => P (l + 1 - i)) ≠ 1
      · exact Finset.prod_congr rfl fun k _ => by
          rw [hbk k k.isLt fun i hi => hall i (by have := k.isLt; omega)]
      · simp only [not_forall, not_not] at hall
        classical
        have hall : ∃ k, k < l ∧ drAlpha W k (fun i => P (l + 1 - i)) = 1 := by
          obtain ⟨k, hk, h⟩ := hall; exact ⟨k, hk, h⟩
        obtain ⟨hk, h1⟩ := Nat.find_spec hall
        have hmin : ∀ i < Nat.find hall, drAlpha W i (fun i => P (l + 1 - i)) ≠ 1 := by
          intro i hi h
          exact Nat.find_min hall hi ⟨by omega, h⟩
        have h2 := hbk _ hk hmin
        rw [Finset.prod_eq_zero (mem_univ (⟨Nat.find hall, hk⟩ : Fin l)) (by simp [h2, h1]),
          Finset.prod_eq_zero (mem_univ (⟨Nat.find hall, hk⟩ : Fin l)) (by simp [h1])]
    have : a l = drAlpha W l P := by
      rw [hv, drAlpha, e1]
      by_cases hlast : (P (l + 1)).logpost = none
      · have hd : (P (l + 1)).density = 0 := by rw [Point.density, hlast]
        simp [hd]
      · rw [e2 hlast]
    rw [← this]
    exact (ha l le_rfl).1

/-- **C78**, detailed balance: with this acceptance probability every path is, from its first to its last
point, as probable as the reversed path, for every number of stages. -/
theorem C78_detailed_balance (W : ℕ → Fin n → Fin n → ℝ) (l : ℕ) (P : ℕ → Point n) :
    pathDensity W l P = pathDensity W l fun i => P (l + 1 - i) :=
  drAlpha_balance W l P

/-- What exact arithmetic makes of a proposal of stage `k + 1` (counting from 1), made when the generator
was in state `s`, if the path of the iteration is `P 0, P 1, …`, the factor of the stage `R` and the
error variances `v`.  The proposal is the row plus normal draw times factor; the point
`P (k + 1)` has its values, and outside the limits density 0, inside the density
`exp(-(∑ q/v + r)/2)` with the user's sums of squares `q` and prior value `r`; it is
accepted exactly if it is inside the limits and the uniform draw is below the delayed-rejection acceptance
probability of the path. -/
structure StageIs (inside : Vec XR n → Prop) (sos : Vec XR n → Vec XR m → Prop) (prior : Vec XR n → XR)
    (G : Rng σ XR) (row : Vec XR n) (v : Fin m → ℝ) (W : ℕ → Fin n → Fin n → ℝ) (P : ℕ → Point n) (k : ℕ)
    (R : Mat XR n) (s : σ) (t : Try XR n) : Prop where
  move : ∀ i, t.theta i = row i + vsum fun j => (G.randn n s).1 j * R j i
  theta : t.theta = fun i => .fin ((P (k + 1)).theta i)
  atOutside : ¬ inside t.theta → (P (k + 1)).logpost = none
  atInside : inside t.theta → ∃ (q : Fin m → ℝ) (r : ℝ), sos t.theta (fun i => .fin (q i)) ∧
    prior t.theta = .fin r ∧ (P (k + 1)).logpost = some (-(1 / 2) * ∑ i, q i / v i - 1 / 2 * r)
  accepted : ∃ u : ℝ, 0 ≤ u ∧ u < 1 ∧ (G.rand (G.randn n s).2).1 = .fin u ∧
    (t.accepted = true ↔ inside t.theta ∧ u < drAlpha W k P)

/-- Finite data for one iteration. -/
structure FiniteStages (sos : Vec XR n → Vec XR m → Prop) (prior : Vec XR n → XR) (G : Rng σ XR)
    (R : Mat XR n) (RDR : Slot (List (Mat XR n))) (invR : Option (List (Mat XR n))) (ntry : ℕ)
    (W : ℕ → Fin n → Fin n → ℝ) : Prop where
  prior : ∀ θ : Fin n → ℝ, ∃ r : ℝ, prior (fun i => .fin (θ i)) = .fin r
  sos : ∀ (θ : Fin n → ℝ) (ss : Vec XR m), sos (fun i => .fin (θ i)) ss →
    ∃ q : Fin m → ℝ, ss = fun i => .fin (q i)
  randn : ∀ s, ∃ z : Fin n → ℝ, (G.randn n s).1 = fun i => .fin (z i)
  rand : ∀ s, ∃ u : ℝ, 0 ≤ u ∧ u < 1 ∧ (G.rand s).1 = .fin u
  R : ∃ A : Fin n → Fin n → ℝ, R = fun i j => .fin (A i j)
  RDR : 1 < ntry → ∀ l, RDR = .some l → ∀ M ∈ l, ∃ A : Fin n → Fin n → ℝ, M = fun i j => .fin (A i j)
  inv : ∀ l, invR = some l → ∀ k, k + 1 < ntry → l[k]? = some fun i j => .fin (W k i j)

theorem move_fin {G : Rng σ XR} (hG : ∀ s, ∃ z : Fin n → ℝ, (G.randn n s).1 = fun i => .fin (z i))
    {row θ : Vec XR n} {x : Fin n → ℝ} (hrow : row = fun i => .fin (x i)) {R : Mat XR n}
    (hR : ∃ A : Fin n → Fin n → ℝ, R = fun i j => .fin (A i j)) {s : σ}
    (h : ∀ i, θ i = row i + vsum fun j => (G.randn n s).1 j * R j i) :
    ∃ y : Fin n → ℝ, θ = fun i => .fin (y i) := by
  obtain ⟨z, hz⟩ := hG s
  obtain ⟨A, rfl⟩ := hR
  refine ⟨fun i => x i + ∑ j, z j * A j i, ?_⟩
  funext i
  rw [h i, hrow, hz]
  simp only [fin_mul, vsum_fin, fin_add]

theorem stages_exact (hm : 0 < m) {inside : Vec XR n → Prop} {sos : Vec XR n → Vec XR m → Prop}
    {prior : Vec XR n → XR} {G : Rng σ XR} {R0 : Mat XR n} {RDR : Slot (List (Mat XR n))}
    {invR : Option (List (Mat XR n))} {ntry : ℕ} {W : ℕ → Fin n → Fin n → ℝ}
    (hF : FiniteStages sos prior G R0 RDR invR ntry W) {row : Vec XR n} {x : Fin n → ℝ}
    (hrow : row = fun i => .fin (x i)) {sigma2 : Vec XR m} {v : Fin m → ℝ} (hv : ∀ i, 0 < v i)
    (hsig : sigma2 = fun i => .fin (v i)) (left : ℕ) :
    ∀ {k : ℕ} {S : ℕ → ParamSet XR n m} {P : ℕ → Point n} {s s' : σ} {ts : List (Try XR n)},
      0 < k → k + left ≤ ntry → (∀ i ≤ k, Represents (S i) (P i)) → (P 0).logpost ≠ none →
      (∀ i < k, drAlpha W i P ≠ 1) →
      Stages inside sos prior G row sigma2 RDR invR left k (pathOf S k) s ts s' →
      ∃ (P' : ℕ → Point n) (st : ℕ → σ), (∀ i ≤ k, P' i = P i) ∧ st 0 = s ∧
        ∀ i t, ts[i]? = some t → ∃ l R, RDR = .some l ∧ l[k + i]? = some R ∧
          StageIs inside sos prior G row v W P' (k + i) R (st i) t ∧
          (i + 1 < ts.length → (inside t.theta → st (i + 1) = (G.rand (G.randn n (st i)).2).2) ∧
            (¬ inside t.theta → st (i + 1) = (G.randn n (st i)).2)) := by
  induction left with
  | zero =>
    intro k S P s s' ts _ _ _ _ _ h
    obtain ⟨rfl, -⟩ := h
    exact ⟨P, fun _ => s, fun _ _ => rfl, rfl, by simp⟩
  | succ left ih =>
    intro k S P s s' ts hk0 hk hS h0 hrej h
    obtain ⟨l, R, t, ts', hl, hlR, rfl, hmove, hout, hin⟩ := h
    obtain ⟨y, hy⟩ := move_fin hF.randn hrow (hF.RDR (by omega) l hl R (List.mem_of_getElem? hlR)) hmove
    obtain ⟨u, hu0, hu1, hu⟩ := hF.rand (G.randn n s).2
    -- a step further along a path that ends in `y`
    have cont : ∀ (nx : ParamSet XR n m) (p : Point n) (s1 : σ), Represents nx p →
        p.theta = y → (¬ inside t.theta → p.logpost = none) →
        (inside t.theta → ∃ (q : Fin m → ℝ) (r : ℝ), sos t.theta (fun i => .fin (q i)) ∧
          prior t.theta = .fin r ∧ p.logpost = some (-(1 / 2) * ∑ i, q i / v i - 1 / 2 * r)) →
        drAlpha W k (fun i => if i = k + 1 then p else P i) ≠ 1 →
        (t.accepted = true ↔ inside t.theta ∧ u < drAlpha W k (fun i => if i = k + 1 then p else P i)) →
        ((inside t.theta → s1 = (G.rand (G.randn n s).2).2) ∧ (¬ inside t.theta → s1 = (G.randn n s).2)) →
        Stages inside sos prior G row sigma2 RDR invR left (k + 1) (pathOf S k ++ [nx]) s1 ts' s' →
        ∃ (P' : ℕ → Point n) (st : ℕ → σ), (∀ i ≤ k, P' i = P i) ∧ st 0 = s ∧
        ∀ i t', (t :: ts')[i]? = some t' → ∃ l R, RDR = .some l ∧ l[k + i]? = some R ∧
          StageIs inside sos prior G row v W P' (k + i) R (st i) t' ∧
          (i + 1 < (t :: ts').length →
            (inside t'.theta → st (i + 1) = (G.rand (G.randn n (st i)).2).2) ∧
            (¬ inside t'.theta → st (i + 1) = (G.randn n (st i)).2)) := by
      intro nx p s1 hrep hp hno hyes hne hacc hs1 hst
      rw [← pathOf_snoc] at hst
      obtain ⟨P', st, g1, g2, g3⟩ := ih (P := fun i => if i = k + 1 then p else P i) (by omega) (by omega)
        (fun i hi => by
          by_cases hik : i = k + 1
          · simp only [if_pos hik]; exact hrep
          · simp only [if_neg hik]; exact hS i (by omega))
        (by simpa using h0)
        (fun i hi => by
          by_cases hik : i = k
          · subst hik; exact hne
          · rw [drAlpha_congr W i (Q := P) fun j hj => if_neg (by omega)]
            exact hrej i (by omega)) hst
      refine ⟨P', fun i => if i = 0 then s else st (i - 1), fun i hi => ?_, rfl, fun i t' ht' => ?_⟩
      · rw [g1 i (by omega), if_neg (by omega)]
      · have hPk : P' (k + 1) = p := by rw [g1 _ le_rfl, if_pos rfl]
        cases i with
        | zero =>
          simp only [List.getElem?_cons_zero, Option.some.injEq] at ht'
          subst ht'
          refine ⟨l, R, hl, hlR, ⟨hmove, ?_, ?_, ?_, u, hu0, hu1, hu, ?_⟩, fun _ => ?_⟩
          · rw [add_zero, hPk, hp]; exact hy
          · rw [add_zero, hPk]; exact hno
          · rw [add_zero, hPk]; exact hyes
          · rw [hacc, add_zero]
            have := drAlpha_congr W k (P := P') (Q := fun i => if i = k + 1 then p else P i) g1
            rw [this]
          · simp only [zero_add, one_ne_zero, if_false, Nat.sub_self, if_true, g2]
            exact hs1
        | succ i =>
          simp only [List.getElem?_cons_succ] at ht'
          obtain ⟨l', R', d1, d2, d3, d4⟩ := g3 i t' ht'
          simp only [Nat.add_sub_cancel, if_neg (Nat.succ_ne_zero _), List.length_cons]
          rw [show k + (i + 1) = k + 1 + i by omega]
          exact ⟨l', R', d1, d2, d3, fun hlt => d4 (by omega)⟩
    by_cases hins : inside t.theta
    · obtain ⟨ss, inv, α, c, c', g1, g2, g3, g4, g5⟩ := hin hins
      rw [hy] at g1
      obtain ⟨q, rfl⟩ := hF.sos y ss g1
      obtain ⟨r, hr⟩ := hF.prior y
      have hr' : prior t.theta = .fin r := by rw [hy]; exact hr
      rw [← hy] at g1
      set p : Point n := ⟨y, some (-(1 / 2) * ∑ i, q i / v i - 1 / 2 * r)⟩ with hp
      have hrep : Represents (⟨t.theta, fun i => .fin (q i), prior t.theta, sigma2, none⟩ :
          ParamSet XR n m) p := ⟨hy, v, hv, hsig, q, r, rfl, hr', rfl⟩
      have hal := C78_acceptance_probability hm (invR := inv) (W := W) k (fun i hi => hF.inv inv g2 i (by omega))
        (S := fun i => if i = k + 1 then ⟨t.theta, fun i => .fin (q i), prior t.theta, sigma2, none⟩ else S i)
        (P := fun i => if i = k + 1 then p else P i)
        (fun i hi => by
          by_cases hik : i = k + 1
          · simp only [if_pos hik]; exact hrep
          · simp only [if_neg hik]; exact hS i (by omega))
        (by simpa using h0)
        (fun i hi => by
          rw [drAlpha_congr W i (Q := P) fun j hj => if_neg (by omega)]
          exact hrej i hi)
      obtain ⟨c'', hc''⟩ := hal c
      rw [pathOf_snoc, g3] at hc''
      obtain rfl : α = .fin (drAlpha W k fun i => if i = k + 1 then p else P i) := by
        cases hc''; rfl
      have hle1 := drAlpha_le_one W k fun i => if i = k + 1 then p else P i
      -- the single proposal
      have single : ts' = [] →
          (t.accepted = true ↔ inside t.theta ∧ u < drAlpha W k (fun i => if i = k + 1 then p else P i)) →
          ∃ (P' : ℕ → Point n) (st : ℕ → σ), (∀ i ≤ k, P' i = P i) ∧ st 0 = s ∧
          ∀ i t', (t :: ts')[i]? = some t' → ∃ l R, RDR = .some l ∧ l[k + i]? = some R ∧
            StageIs inside sos prior G row v W P' (k + i) R (st i) t' ∧
            (i + 1 < (t :: ts').length →
              (inside t'.theta → st (i + 1) = (G.rand (G.randn n (st i)).2).2) ∧
              (¬ inside t'.theta → st (i + 1) = (G.randn n (st i)).2)) := by
        intro hnil hacc
        refine ⟨fun i => if i = k + 1 then p else P i, fun _ => s, fun i hi => if_neg (by omega), rfl,
          fun i t' ht' => ?_⟩
        rw [hnil] at ht' ⊢
        have : i = 0 := by
          have := (List.getElem?_eq_some_iff.1 ht').1
          simpa using this
        subst this
        simp only [List.getElem?_cons_zero, Option.some.injEq] at ht'
        subst ht'
        refine ⟨l, R, hl, hlR, ⟨hmove, ?_, fun h => absurd hins h, fun _ => ⟨q, r, g1, hr', ?_⟩, u, hu0, hu1, hu,
          hacc⟩, by simp⟩
        · simp only [add_zero, if_true, hp]; exact hy
        · simp only [add_zero, if_true, hp]
      by_cases h1 : drAlpha W k (fun i => if i = k + 1 then p else P i) = 1
      · obtain ⟨e1, e2, -⟩ := g4 (by rw [h1]; simp)
        refine single e2 ?_
        rw [h1]
        exact ⟨fun _ => ⟨hins, hu1⟩, fun _ => e1⟩
      · have hlt : drAlpha W k (fun i => if i = k + 1 then p else P i) < 1 := lt_of_le_of_ne hle1 h1
        obtain ⟨e1, e2, e3⟩ := g5 (by simpa using hlt)
        have hacc : t.accepted = true ↔
            inside t.theta ∧ u < drAlpha W k (fun i => if i = k + 1 then p else P i) := by
          rw [e1, hu]
          simp [hins]
        cases ha : t.accepted with
        | true => exact single (e2 ha).1 hacc
        | false =>
          exact cont _ p _ hrep rfl (fun h => absurd hins h) (fun _ => ⟨q, r, g1, hr', rfl⟩) h1 hacc
            ⟨fun _ => rfl, fun h => absurd hins h⟩ (e3 ha)
    · obtain ⟨g1, g2⟩ := hout hins
      have hrep : Represents (outsideSet t.theta sigma2 : ParamSet XR n m) ⟨y, none⟩ :=
        represents_outside (v := v) hy rfl (by simp [outsideSet]) hv hsig
      have hz : drAlpha W k (fun i => if i = k + 1 then (⟨y, none⟩ : Point n) else P i) = 0 := by
        rw [drAlpha]
        simp [Point.density]
      refine cont _ ⟨y, none⟩ _ hrep rfl (fun _ => rfl) (fun h => absurd h hins) (by rw [hz]; norm_num) ?_
        ⟨fun h => absurd h hins, fun _ => rfl⟩ g2
      rw [g1]
      simp [hins]

/-- **C78**, one iteration in exact arithmetic.  Stage after stage, a proposal is the row plus normal draw
times factor and is accepted exactly if it is inside the limits and the uniform draw is below the
delayed-rejection acceptance probability of the path of all proposals so far; the draws are made one
after the other, without a uniform draw for a proposal outside the limits. -/
theorem C78_iteration_exact (hm : 0 < m) {inside : Vec XR n → Prop} {sos : Vec XR n → Vec XR m → Prop}
    {prior : Vec XR n → XR} {G : Rng σ XR} {R : Mat XR n} {RDR : Slot (List (Mat XR n))}
    {invR : Option (List (Mat XR n))} {ntry : ℕ} {W : ℕ → Fin n → Fin n → ℝ}
    (hF : FiniteStages sos prior G R RDR invR ntry W) {row : ParamSet XR n m} {p0 : Point n}
    {v : Fin m → ℝ} (hv : ∀ i, 0 < v i) (hsig : row.sigma2 = fun i => .fin (v i))
    (hrep : Represents row p0) (hp0 : p0.logpost ≠ none) {s s' : σ} {ts : List (Try XR n)}
    (h : Iteration inside sos prior G row R RDR invR ntry s ts s') :
    ∃ (P : ℕ → Point n) (st : ℕ → σ), P 0 = p0 ∧ st 0 = s ∧
      ∀ i t, ts[i]? = some t → ∃ Ri, (i = 0 → Ri = R) ∧
        (0 < i → i < ntry ∧ ∃ l, RDR = .some l ∧ l[i]? = some Ri) ∧
        StageIs inside sos prior G row.theta v W P i Ri (st i) t ∧
        (i + 1 < ts.length → (inside t.theta → st (i + 1) = (G.rand (G.randn n (st i)).2).2) ∧
          (¬ inside t.theta → st (i + 1) = (G.randn n (st i)).2)) := by
  obtain ⟨t, ts', rfl, hmove, hout, hin⟩ := h
  obtain ⟨y, hy⟩ := move_fin hF.randn hrep.theta hF.R hmove
  obtain ⟨u, hu0, hu1, hu⟩ := hF.rand (G.randn n s).2
  obtain ⟨e0, he0⟩ := Option.ne_none_iff_exists'.1 hp0
  have hd0 : 0 < p0.density := by rw [Point.density, he0]; exact Real.exp_pos _
  have hrow' : Represents { row with alpha := none } p0 := ⟨hrep.theta, hrep.energy⟩
  -- the first acceptance probability
  have hfirst : ∀ p : Point n, drAlpha W 0 (fun i => if i = 0 then p0 else p) =
      min 1 (p.density / p0.density) := by
    intro p
    rw [drAlpha]
    have hg : gauss (W 0) p.theta p0.theta = gauss (W 0) p0.theta p.theta := by
      unfold gauss
      congr 2
      refine Finset.sum_congr rfl fun j _ => ?_
      rw [← neg_sq (∑ i, (p.theta i - p0.theta i) * W 0 i j), ← Finset.sum_neg_distrib]
      congr 1
      exact Finset.sum_congr rfl fun i _ => by ring
    have hgp : gauss (W 0) p0.theta p.theta ≠ 0 := (Real.exp_pos _).ne'
    simp [hg, mul_div_mul_right _ _ hgp]
  have finish : ∀ (nx : ParamSet XR n m) (p : Point n) (s1 : σ), Represents nx p → p.theta = y →
      (¬ inside t.theta → p.logpost = none) →
      (inside t.theta → ∃ (q : Fin m → ℝ) (r : ℝ), sos t.theta (fun i => .fin (q i)) ∧
          prior t.theta = .fin r ∧ p.logpost = some (-(1 / 2) * ∑ i, q i / v i - 1 / 2 * r)) →
      (t.accepted = true ↔ inside t.theta ∧ u < min 1 (p.density / p0.density)) →
      ((inside t.theta → s1 = (G.rand (G.randn n s).2).2) ∧ (¬ inside t.theta → s1 = (G.randn n s).2)) →
      (ts' = [] ∨ (p.density / p0.density < 1 ∧
        Stages inside sos prior G row.theta row.sigma2 RDR invR (ntry - 1) 1
          [{ row with alpha := none }, nx] s1 ts' s')) →
      ∃ (P : ℕ → Point n) (st : ℕ → σ), P 0 = p0 ∧ st 0 = s ∧
      ∀ i t', (t :: ts')[i]? = some t' → ∃ Ri, (i = 0 → Ri = R) ∧
        (0 < i → i < ntry ∧ ∃ l, RDR = .some l ∧ l[i]? = some Ri) ∧
        StageIs inside sos prior G row.theta v W P i Ri (st i) t' ∧
        (i + 1 < (t :: ts').length →
          (inside t'.theta → st (i + 1) = (G.rand (G.randn n (st i)).2).2) ∧
          (¬ inside t'.theta → st (i + 1) = (G.randn n (st i)).2)) := by
    intro nx p s1 hnx hp hno hyes hacc hs1 hrest
    have hone : ∀ P : ℕ → Point n, P 0 = p0 → P 1 = p →
        StageIs inside sos prior G row.theta v W P 0 R s t := by
      intro P h0 h1
      refine ⟨hmove, ?_, ?_, ?_, u, hu0, hu1, hu, ?_⟩
      · rw [h1, hp]; exact hy
      · rw [h1]; exact hno
      · rw [h1]; exact hyes
      · rw [hacc, drAlpha_congr W 0 (Q := fun i => if i = 0 then p0 else p), hfirst]
        intro i hi
        rcases Nat.le_one_iff_eq_zero_or_eq_one.1 hi with rfl | rfl
        · simpa using h0
        · simpa using h1
    rcases hrest with rfl | ⟨hlt, hrest⟩
    · refine ⟨fun i => if i = 0 then p0 else p, fun _ => s, rfl, rfl, fun i t' ht' => ?_⟩
      have : i = 0 := by
        have := (List.getElem?_eq_some_iff.1 ht').1
        simpa using this
      subst this
      simp only [List.getElem?_cons_zero, Option.some.injEq] at ht'
      subst ht'
      exact ⟨R, fun _ => rfl, fun h => absurd h (lt_irrefl _), hone _ rfl rfl, by simp⟩
    · by_cases hnt : ntry ≤ 1
      · rw [show ntry - 1 = 0 by omega] at hrest
        obtain ⟨rfl, -⟩ := hrest
        refine ⟨fun i => if i = 0 then p0 else p, fun _ => s, rfl, rfl, fun i t' ht' => ?_⟩
        have : i = 0 := by
          have := (List.getElem?_eq_some_iff.1 ht').1
          simpa using this
        subst this
        simp only [List.getElem?_cons_zero, Option.some.injEq] at ht'
        subst ht'
        exact ⟨R, fun _ => rfl, fun h => absurd h (lt_irrefl _), hone _ rfl rfl, by simp⟩
      have hpath : ([{ row with alpha := none }, nx] : List (ParamSet XR n m)) =
          pathOf (fun i => if i = 0 then { row with alpha := none } else nx) 1 := rfl
      rw [hpath] at hrest
      have hlen : ts'.length ≤ ntry - 1 := by
        have : ∀ (left : ℕ) {k : ℕ} {path : List (ParamSet XR n m)} {s s' : σ} {ts : List (Try XR n)},
            Stages inside sos prior G row.theta row.sigma2 RDR invR left k path s ts s' →
            ts.length ≤ left := by
          intro left
          induction left with
          | zero => rintro k path s s' ts ⟨rfl, -⟩; simp
          | succ left ih =>
            rintro k path s s' ts ⟨l, R, t, ts', -, -, rfl, -, h1, h2⟩
            rw [List.length_cons, Nat.succ_le_succ_iff]
            by_cases hi : inside t.theta
            · obtain ⟨ss, inv, α, c, c', -, -, -, g4, g5⟩ := h2 hi
              cases hle : PyFloat.le (lit 1) α with
              | true => rw [(g4 hle).2.1]; simp
              | false =>
                cases ha : t.accepted with
                | true => rw [((g5 hle).2.1 ha).1]; simp
                | false => exact ih ((g5 hle).2.2 ha)
            · exact ih (h1 hi).2
        exact this _ hrest
      obtain ⟨P', st, g1, g2, g3⟩ := stages_exact hm hF hrep.theta hv hsig (ntry - 1) (k := 1)
        (P := fun i => if i = 0 then p0 else p) one_pos (by omega)
        (fun i hi => by
          by_cases h0 : i = 0
          · simp only [if_pos h0]; exact hrow'
          · simp only [if_neg h0]; exact hnx) hp0
        (fun i hi => by
          obtain rfl : i = 0 := by omega
          rw [hfirst]
          exact (lt_of_le_of_lt (min_le_right _ _) hlt).ne) hrest
      refine ⟨P', fun i => if i = 0 then s else st (i - 1), g1 0 (by omega), rfl, fun i t' ht' => ?_⟩
      cases i with
      | zero =>
        simp only [List.getElem?_cons_zero, Option.some.injEq] at ht'
        subst ht'
        refine ⟨R, fun _ => rfl, fun h => absurd h (lt_irrefl _), hone _ (g1 0 (by omega)) (g1 1 le_rfl),
          fun _ => ?_⟩
        simp only [zero_add, one_ne_zero, if_false, Nat.sub_self, if_true, g2]
        exact hs1
      | succ i =>
        simp only [List.getElem?_cons_succ] at ht'
        obtain ⟨l, R', d1, d2, d3, d4⟩ := g3 i t' ht'
        have hi := (List.getElem?_eq_some_iff.1 ht').1
        rw [add_comm 1 i] at d2 d3
        refine ⟨R', fun h => absurd h (by omega), fun _ => ⟨by omega, l, d1, d2⟩, ?_, fun hlt => ?_⟩
        · simpa only [Nat.add_sub_cancel, if_neg (Nat.succ_ne_zero _)] using d3
        · simp only [Nat.add_sub_cancel, if_neg (Nat.succ_ne_zero _)]
          exact d4 (by simpa using hlt)
  by_cases hins : inside t.theta
  · obtain ⟨ss, g1, g2, g3, g4⟩ := hin hins
    rw [hy] at g1
    obtain ⟨q, rfl⟩ := hF.sos y ss g1
    obtain ⟨r, hr⟩ := hF.prior y
    have hr' : prior t.theta = .fin r := by rw [hy]; exact hr
    rw [← hy] at g1
    obtain ⟨v', hv', hs', hen⟩ := hrep.energy
    rw [he0] at hen
    obtain ⟨q0, r0, hq0, hr0, hee⟩ := hen
    obtain rfl : v' = v := by
      rw [hsig] at hs'
      funext i
      exact (fin_injective (congrFun hs' i)).symm
    have hdec : (t.accepted = true ↔
        u < (⟨y, some (-(1 / 2) * ∑ i, q i / v' i - 1 / 2 * r)⟩ : Point n).density / p0.density) := by
      have hlog : ∀ (a : Fin m → ℝ) (b : ℝ),
          lit (-1/2) * vsum (fun i => (XR.fin (a i)) / XR.fin (v' i)) + lit (-1/2) * XR.fin b =
          XR.fin (-(1 / 2) * ∑ i, a i / v' i - 1 / 2 * b) := by
        intro a b
        have : (fun i => XR.fin (a i) / XR.fin (v' i)) = fun i => XR.fin (a i / v' i) := by
          funext i; rw [fin_div (hv i).ne']
        rw [this, vsum_fin, lit_eq, fin_mul, fin_mul, fin_add]
        congr 1
        push_cast
        ring
      rw [g2, hu, hr', hq0, hr0, hsig]
      simp only [hlog]
      have := logOf_lt_sub (e0 := -(1 / 2) * ∑ i, q0 i / v' i - 1 / 2 * r0) hu0
        (some (-(1 / 2) * ∑ i, q i / v' i - 1 / 2 * r))
      rw [← hee] at this
      simp only [Point.density, he0]
      rw [← hee]
      exact this
    have hacc : t.accepted = true ↔ inside t.theta ∧ u < min 1
        ((⟨y, some (-(1 / 2) * ∑ i, q i / v' i - 1 / 2 * r)⟩ : Point n).density / p0.density) := by
      rw [hdec]
      simp [hins, hu1]
    refine finish ⟨t.theta, fun i => .fin (q i), prior t.theta, row.sigma2, none⟩
      ⟨y, some (-(1 / 2) * ∑ i, q i / v' i - 1 / 2 * r)⟩ (G.rand (G.randn n s).2).2
      ⟨hy, v', hv', hs', q, r, rfl, hr', rfl⟩ rfl (fun h => absurd hins h)
      (fun _ => ⟨q, r, g1, hr', rfl⟩) hacc ⟨fun _ => rfl, fun h => absurd hins h⟩ ?_
    cases ha : t.accepted with
    | true => exact .inl (g3 ha).1
    | false =>
      refine .inr ⟨?_, g4 ha⟩
      rw [ha] at hdec
      simp only [Bool.false_eq_true, false_iff, not_lt] at hdec
      exact lt_of_le_of_lt hdec hu1
  · obtain ⟨g1, g2⟩ := hout hins
    refine finish (outsideSet t.theta row.sigma2) ⟨y, none⟩ (G.randn n s).2
      (represents_outside (v := v) hy rfl (by simp [outsideSet]) hv hsig) rfl (fun _ => rfl)
      (fun h => absurd h hins) (by rw [g1]; simp [hins]) ⟨fun h => absurd h hins, fun _ => rfl⟩
      (.inr ⟨by simp [Point.density], g2⟩)

open Matrix

theorem _root_.Verif.UserPrior.unique {F : Type} [PyFloat F] {flags : Fin N → Bool}
    {specs : Fin N → ParamSpec F} {mu sigma mu' sigma' : Vec F (nS flags)} (h : UserPrior flags specs mu sigma)
    (h' : UserPrior flags specs mu' sigma') : mu = mu' ∧ sigma = sigma' := by
  have hk : ∀ i : Fin (nS flags), ∃ k, ((List.finRange N).filter flags)[i.val]? = some k := fun i =>
    ⟨_, List.getElem?_eq_getElem i.isLt⟩
  constructor <;> funext i <;> obtain ⟨k, hk⟩ := hk i <;> obtain ⟨⟨a, b⟩, d, e⟩ := h i k hk <;>
    obtain ⟨⟨a', b'⟩, d', e'⟩ := h' i k hk
  · cases hn : PyFloat.isnan (specs k).priorMu with
    | true => rw [b hn, b' hn]
    | false => rw [a hn, a' hn]
  · cases h0 : PyFloat.beq (specs k).priorSigma (lit 0) with
    | true => rw [e (.inl h0), e' (.inl h0)]
    | false =>
      cases h1 : PyFloat.le (specs k).priorSigma (lit 0) with
      | true => rw [e (.inr h1), e' (.inr h1)]
      | false => rw [d h0 h1, d' h0 h1]

theorem fresh_chain_length {F : Type} [PyFloat F] {flags : Fin N → Bool} {U : UserFuns F N (nS flags) m}
    {o : Obj F flags m} {G : Rng σ F} {L : Lapack F} {fuel : ℕ} {rng : σ} {out : RunOut F σ flags m}
    (h : runSimulation U G L fuel o rng false = .ok out) :
    (out.results.chain.length : ℤ) = o.opts.nsimu := by
  obtain ⟨o1, I, s0, h1, h2, h3, h4, h5⟩ := runSimulation_ok h
  obtain ⟨hst, hpos, hci, hch, _⟩ := setup_fresh h1
  obtain ⟨_, _, _, _, _, hc, _⟩ := generateResults_ok h3
  obtain ⟨_, s1, hP, hfin⟩ := executeSimulator_inv (P := fun _ s => s.chain.length = s0.chain.length) rfl
    (fun i a b p hi _ hP hp => by rw [hp.chain]; simpa using hP) h2
  have e1 : I.opts.nsimu = o.opts.nsimu := by rw [hst.init.opts, hst.opts]; rfl
  rw [hc, hfin]
  change (s1.chain.length : ℤ) = _
  rw [hP, hch]
  simp [zeroRows]
  omega

/-- positive finite error variances -/
def PosVar (x : Vec XR m) : Prop := ∃ v : Fin m → ℝ, (∀ i, 0 < v i) ∧ x = fun i => .fin (v i)

/-- **C78**, a whole run in exact arithmetic.  In every iteration `j` of a run from scratch the first stage
factor is a real matrix `A 0`, that of stage `k + 1` is `A k`, which is `A 0` divided by the product of the
first `k` scale factors, and `W k` is its inverse.  The path starts in row `j` of the chain
with the posterior density there.  Every stage proposes the row plus a normal draw times
`A k`, and accepts exactly if the proposal is inside the limits and the uniform draw is below the
delayed-rejection acceptance probability of the path, computed with the user's posterior density and
the Gaussian proposals of the factors `A k`. -/
theorem C78_exact {flags : Fin N → Bool} {U : UserFuns XR N (nS flags) m} {specs : Fin N → ParamSpec XR}
    {opts : SimOpts XR} {extra : ExtraOpts XR (nS flags)} {ms : ModelSettings XR} {data : Data}
    {G : Rng σ XR} {L : Lapack XR} {fuel : ℕ} {rng : σ} {out : RunOut XR σ flags m}
    (h : runSimulation U G L fuel (newObj specs opts extra ms data) rng false = .ok out)
    (hx : ExactInputs G L (newObj specs opts extra ms data : Obj XR flags m))
    (hnames : (((List.finRange N).filter flags).map fun k => (specs k).name).Nodup)
    (hnan : ∀ k, PyFloat.isnan (specs k).theta0 = false)
    (hm : 0 < m) (hn : 0 < nS flags) (hsos : Computes U.style1 U.sosFun) (hns : 1 < opts.nsimu)
    (hdr : 1 < opts.ntry → SupportsDR opts extra.drscale) (hRDR : extra.RDR = none) (hobs : data.n ≠ [])
    {t : Fin (nS flags) → ℝ} (ht : out.init.initialSet.theta = finVec t)
    {Q : Matrix (Fin (nS flags)) (Fin (nS flags)) ℝ} (hQ : out.init.cov.qcov = finMx Q) (hpd : Q.PosDef)
    {ds : List ℝ} (hds : extra.drscale = ds.map .fin)
    (hprior : ∀ mu sigma, UserPrior flags specs mu sigma → ∀ θ : Fin (nS flags) → ℝ,
      ∃ r : ℝ, U.priorFun (finVec θ) mu sigma = .fin r)
    (hss : ∀ (θ : Fin (nS flags) → ℝ) ss, SosThere U specs (finVec θ) ss → ∃ q : Fin m → ℝ, ss = finVec q)
    (hrand : ∀ s, ∃ u : ℝ, 0 ≤ u ∧ u < 1 ∧ (G.rand s).1 = .fin u)
    (hvar : ∀ c, out.results.s2chain = some c → ∀ x ∈ c, PosVar x)
    (hvar0 : out.results.s2chain = none → PosVar out.init.errModel.sigma2) :
    ∃ mu sigma, UserPrior flags specs mu sigma ∧
      (out.final.moveLog.length : ℤ) + 1 = opts.nsimu ∧ out.final.trace.length = out.final.moveLog.length ∧
      ∀ j rec ts, out.final.moveLog[j]? = some rec → out.final.trace[j]? = some ts →
      ∃ (x : Fin (nS flags) → ℝ) (q v : Fin m → ℝ) (r : ℝ)
        (A W : ℕ → Matrix (Fin (nS flags)) (Fin (nS flags)) ℝ) (P : ℕ → Point (nS flags)) (st : ℕ → σ),
        out.results.chain[j]? = some (finVec x) ∧ out.results.sschain[j]? = some (finVec q) ∧
        (∀ c, out.results.s2chain = some c → c[j]? = some (finVec v)) ∧
        (out.results.s2chain = none → out.init.errModel.sigma2 = finVec v) ∧ (∀ i, 0 < v i) ∧
        U.priorFun (finVec x) mu sigma = .fin r ∧
        P 0 = ⟨x, some (-(1 / 2) * ∑ i, q i / v i - 1 / 2 * r)⟩ ∧
        ((((out.final.adaptLog.filter fun a => decide (a.at_ ≤ j)).getLast?.map
            fun a => a.after).getD out.init.cov).R = finMx (A 0)) ∧
        (1 < opts.ntry → ∀ k, A k = (stageScale ds k)⁻¹ • A 0) ∧
        (1 < opts.ntry → ∀ k < opts.ntry.toNat, A k * W k = 1) ∧
        st 0 = rec.rng ∧ (ts.length : ℤ) ≤ max 1 opts.ntry ∧
        ∀ i t', ts[i]? = some t' →
          StageIs (InLimits flags specs) (SosThere U specs) (fun th => U.priorFun th mu sigma) G (finVec x) v
            W P i (finMx (A i)) (st i) t' ∧
          (i + 1 < ts.length →
            (InLimits flags specs t'.theta → st (i + 1) = (G.rand (G.randn (nS flags) (st i)).2).2) ∧
            (¬ InLimits flags specs t'.theta → st (i + 1) = (G.randn (nS flags) (st i)).2)) := by
  obtain ⟨mu, sigma, hmu, hstages⟩ := C78_stages .start hnan h
  have hx0 : ∀ d ∈ ds, d ≠ 0 := by
    obtain ⟨ds', h2, h3⟩ := hx.drscale
    rw [show (newObj specs opts extra ms data : Obj XR flags m).extra.drscale = ds.map .fin from hds] at h2
    rwa [List.map_injective_iff.2 XR.fin_injective h2]
  obtain ⟨hfinite, hadapt⟩ : (∀ row ∈ out.results.chain, ∃ r, row = finVec r) ∧
      ∀ r ∈ out.final.adaptLog, ∃ R, r.after.R = finMx R ∧ IsUnit R := by
    obtain ⟨o1, I, s0, hst, rfl, _, hset, _⟩ := run_cov h
    rcases C65_exact_run_returns (fuel := fuel) hx hset hns hn hsos hdr hobs ht hQ hpd with
      ⟨out', h4, h5⟩ | ⟨h4, _⟩
    · rw [h] at h4
      cases h4
      exact h5
    · rw [h] at h4; cases h4
  obtain ⟨k0, mu', sigma', hmu', hk0, hlen, htr, hrows⟩ := C72_decisions .start hnames hnan h
  obtain ⟨rfl, rfl⟩ := hmu.unique hmu'
  have hlen' : (out.final.moveLog.length : ℤ) + 1 = opts.nsimu := hlen
  refine ⟨mu, sigma, hmu, hlen, htr, fun j rec ts hr hts => ?_⟩
  obtain ⟨f1, f2, f3, f4, f5, f6, -⟩ := hrows j rec ts hr hts
  obtain ⟨hit, c, hc, hcR, hcRDR, hcinv⟩ := hstages j rec ts hr hts
  obtain rfl : k0 = 0 := by
    have h2 : (out.results.chain.length : ℤ) = opts.nsimu := fresh_chain_length h
    omega
  rw [zero_add] at f1 f2 f4
  -- the factors
  obtain ⟨R, W, hR, hWR⟩ : ∃ (R : Matrix (Fin (nS flags)) (Fin (nS flags)) ℝ)
      (W : ℕ → Matrix (Fin (nS flags)) (Fin (nS flags)) ℝ), c.R = finMx R ∧
      (1 < opts.ntry → ∃ l il, c.RDR = .some l ∧ c.invR = some il ∧ l.length = opts.ntry.toNat ∧
        ∀ k < opts.ntry.toNat, l[k]? = some (finMx ((stageScale ds k)⁻¹ • R)) ∧
          il[k]? = some (finMx (W k)) ∧ ((stageScale ds k)⁻¹ • R) * W k = 1) := by
    have hcv : ∃ R : Matrix (Fin (nS flags)) (Fin (nS flags)) ℝ, c.R = finMx R ∧
        (1 < opts.ntry → StageFactors ds opts.ntry.toNat R c) := by
      obtain ⟨o1, I, s0, hst, rfl, _, hset, _⟩ := run_cov h
      cases hl : (out.final.adaptLog.filter fun a => decide (a.at_ ≤ j)).getLast? with
      | none =>
        rw [hl] at hc
        obtain rfl : c = out.init.cov := hc
        obtain ⟨R, hR, -⟩ := (start_fin (fuel := fuel) hx hset nofun hdr ht hQ hpd).2.cov.R
        rw [hst.cov] at hR
        exact ⟨R, hR, fun hnt => C17_start hx.lapack hset hRDR (hdr hnt).method (by
          change 0 < opts.ntry; omega) hds hx0 hR⟩
      | some a =>
        rw [hl] at hc
        obtain rfl : c = a.after := hc
        have ha : a ∈ out.final.adaptLog :=
          List.mem_of_mem_filter (List.mem_of_getLast? hl)
        obtain ⟨R, hR, -⟩ := hadapt a ha
        refine ⟨R, hR, fun hnt => C17_adapted hx.lapack h hnt hds hx0 ha ?_ hR⟩
        have hmem : a.at_ ∈ out.final.adaptedAt := by
          rw [← adaptLog_at h]; exact List.mem_map_of_mem ha
        have hsch := C14_adaptation_schedule_partial h
        change (0 < opts.adaptint → _) ∧ (opts.adaptint ≤ 0 → _) at hsch
        by_cases hai : 0 < opts.adaptint
        · obtain ⟨h1, -, h3⟩ := ((hsch.1 hai).2 _).1 hmem
          have := Int.le_of_dvd (by omega) h3
          exact le_trans ((hdr hnt).burnin hai).1 this
        · rw [(hsch.2 (by omega)).1] at hmem
          simp at hmem
    obtain ⟨R, hR, hSF⟩ := hcv
    by_cases hnt : 1 < opts.ntry
    · obtain ⟨l, il, e1, e2, e3, e4, e5⟩ := hSF hnt
      choose! W hW using e5
      exact ⟨R, W, hR, fun _ => ⟨l, il, e1, e2, e3, hW⟩⟩
    · exact ⟨R, fun _ => 0, hR, fun h => absurd h hnt⟩
  obtain ⟨x, hx'⟩ := hfinite _ (List.mem_of_getElem? f1)
  obtain ⟨ss, v1, e1, e2, e3⟩ := (C03_sums_of_squares_belong_to_rows .start h).2 j _ f1
  rw [f2] at e1
  cases e1
  rw [hx'] at e2
  obtain ⟨q, hq⟩ := hss x _ ⟨v1, e2, e3⟩
  obtain ⟨r, hr0⟩ := hprior mu sigma hmu x
  have hpv : PosVar rec.before.sigma2 := by
    cases hs2 : out.results.s2chain with
    | none => rw [f5 (.inl hs2)]; exact hvar0 hs2
    | some c => exact hvar c hs2 _ (List.mem_of_getElem? (f4 c hs2 (.inr rfl)))
  obtain ⟨v, hv, hsig⟩ := hpv
  have hs0 : stageScale ds 0 = 1 := by simp [stageScale]
  have hF : FiniteStages (SosThere U specs) (fun th => U.priorFun th mu sigma) G rec.R rec.RDR rec.invR
      opts.ntry.toNat W := by
    refine ⟨hprior mu sigma hmu, hss, hx.draws, hrand, ⟨R, by rw [hcR]; exact hR⟩, ?_, ?_⟩
    · intro hnt l hl M hM
      obtain ⟨l', il, d1, d2, d3, d4⟩ := hWR (by omega)
      rw [hcRDR, d1] at hl
      cases hl
      obtain ⟨k, hk, rfl⟩ := List.mem_iff_getElem.1 hM
      have := (d4 k (by omega)).1
      rw [List.getElem?_eq_getElem hk] at this
      exact ⟨_, Option.some.inj this⟩
    · intro l hl k hk
      obtain ⟨l', il, d1, d2, d3, d4⟩ := hWR (by omega)
      rw [hcinv, d2] at hl
      cases hl
      exact (d4 k (by omega)).2.1
  have hpr : rec.before.prior = .fin r := by rw [f3, hx']; exact hr0
  obtain ⟨P, st, p1, p2, p3⟩ := C78_iteration_exact hm hF hv hsig
    (p0 := ⟨x, some (-(1 / 2) * ∑ i, q i / v i - 1 / 2 * r)⟩)
    ⟨hx', v, hv, hsig, q, r, hq, hpr, rfl⟩ (by simp) hit
  refine ⟨x, q, v, r, fun k => if 1 < opts.ntry then (stageScale ds k)⁻¹ • R else R, W, P, st,
    by rw [f1, hx'], by rw [f2, hq], fun c hs2 => by rw [f4 c hs2 (.inr rfl), hsig]; rfl,
    fun hs2 => by rw [← f5 (.inl hs2), hsig]; rfl, hv, hr0, p1, ?_, ?_, ?_, p2, ?_, fun i t' ht' => ?_⟩
  · rw [← hc, hR]; simp [hs0]
  · intro hnt k
    simp [hnt, hs0]
  · intro hnt k hk
    simp only [hnt, if_true]
    obtain ⟨l', il, d1, d2, d3, d4⟩ := hWR hnt
    exact (d4 k hk).2.2
  · by_contra hlt
    have hlt : 1 < ts.length ∧ opts.ntry < ts.length := by omega
    obtain ⟨Ri, -, d2, -⟩ := p3 (ts.length - 1) _ (List.getElem?_eq_getElem (by omega))
    have := (d2 (by omega)).1
    change _ < opts.ntry.toNat at this
    omega
  · obtain ⟨Ri, d1, d2, d3, d4⟩ := p3 i t' ht'
    refine ⟨?_, d4⟩
    rw [hx'] at d3
    convert d3 using 1
    by_cases hi : i = 0
    · rw [d1 hi, hi, hcR, hR]; simp [hs0]
    · obtain ⟨hi', l, l1, l2⟩ := d2 (by omega)
      change i < opts.ntry.toNat at hi'
      have hnt : 1 < opts.ntry := by omega
      obtain ⟨l', il, g1, g2, g3, g4⟩ := hWR hnt
      rw [hcRDR, g1] at l1
      cases l1
      rw [(g4 i hi').1] at l2
      simp only [if_pos hnt]
      exact Option.some.inj l2

end exact

/-! ### Examples -/

/-- C78 and C79 apply to a continued run with delayed rejection in which second stages occur and the error
variance is sampled. -/
example : ∃ a b, Toy.twice .dram 5 4 = .ok (a, b) ∧ b.results.s2chain.isSome ∧
    (∃ ts ∈ b.final.trace, ts.length = 2) ∧
    (∀ r, b.final.moveLog[0]? = some r → r.rng = 3) ∧
    ∃ mu sigma, ∀ (j : ℕ) (r : MoveRecord ℚ ℕ (nS Toy.flags) 1) ts, b.final.moveLog[j]? = some r →
      b.final.trace[j]? = some ts →
      Iteration (InLimits Toy.flags Toy.specs) (SosThere Toy.user Toy.specs)
        (fun th => Toy.user.priorFun th mu sigma) Toy.rng r.before r.R r.RDR r.invR 2 r.rng ts r.rngAfter := by
  obtain ⟨⟨a, b⟩, h, hp⟩ := exists_ok_and (x := Toy.twice .dram 5 4)
    (fun ab => ab.2.results.s2chain.isSome && ab.2.final.trace.any fun ts => ts.length == 2) (by decide +kernel)
  have hab := h
  unfold Toy.twice at h
  rw [bind_ok] at h
  obtain ⟨a', h1, h⟩ := h
  rw [bind_ok] at h
  obtain ⟨b', h2, h⟩ := h
  cases h
  have hr : Reachable Toy.user (newObj Toy.specs { Toy.opts .dram 5 with updatesigma := true }
      Toy.extra Toy.settings Toy.data) { a.obj with
        opts := { Toy.opts .dram 4 with updatesigma := true }, extra := Toy.extra } :=
    .options { method := .dram, nsimu := 4, savesize := 2, updatesigma := true } Toy.extra
      (.run Toy.rng Toy.lapack 100 0 false a .start h1)
  obtain ⟨mu, sigma, -, g⟩ := C78_stages hr (by decide +kernel) h2
  obtain ⟨-, g', -⟩ := C79_draws_in_sequence hr h2
  simp only [Bool.and_eq_true, List.any_eq_true, beq_iff_eq] at hp
  exact ⟨a, b, hab, hp.1, hp.2, g', mu, sigma, fun j r ts hr hts => (g j r ts hr hts).1⟩

/-- the hypotheses of `C78_exact` (and so those of `C78_iteration_exact` and
`C78_acceptance_probability`) can be met: delayed rejection for the target `exp(-θ²/2)` on `[-10, 10]`
with an adaptation; the first stage of the first iteration -/
example : ∃ (out : RunOut XR Unit XRun.flags 1) (ts : _) (t : _)
    (A W : ℕ → Matrix (Fin (nS XRun.flags)) (Fin (nS XRun.flags)) ℝ) (P : ℕ → Point (nS XRun.flags)) (u : ℝ),
    runSimulation XRun.user XRun.rng exactLapack 0 (XRun.obj XRun.dramArgs) () false = .ok out ∧
    out.final.moveLog.length = 2 ∧ out.final.trace[0]? = some (t :: ts) ∧ A 1 = (5 : ℝ)⁻¹ • A 0 ∧
    A 1 * W 1 = 1 ∧ (t.accepted = true ↔ InLimits XRun.flags (XRun.specs true) t.theta ∧
      u < drAlpha (fun k => W k) 0 P) := by
  obtain ⟨out, h⟩ := XRun.dram_run
  obtain ⟨o1, I, s0, h1, ht, hq, _⟩ := XRun.dram_setup
  obtain ⟨o1', I', s0', hst, rfl, _, h1', _⟩ := run_cov h
  rw [h1] at h1'
  cases h1'
  have hs2 : out.results.s2chain = none := by
    by_contra hne
    obtain ⟨c, hc⟩ := Option.ne_none_iff_exists'.1 hne
    obtain ⟨o2, I2, s2, k1, k2, k3, k4, k5⟩ := runSimulation_ok h
    rw [h1] at k1
    cases k1
    obtain ⟨_, _, _, _, _, _, _, e, _⟩ := generateResults_ok k3
    have hu : out.init.opts.updatesigma = false := by
      rw [hst.init.opts, hst.opts, hst.ms]; rfl
    rw [e, (executeSimulator_no_sigma (E := ⟨out.init.problem, XRun.rng, exactLapack,
      runOpts out.init.opts o1.extra, 0⟩) hu k2).2, (setup_fresh h1).2.2.2.2.2.1, hu] at hc
    cases hc
  obtain ⟨mu, sigma, hmu, hlen, htr, g⟩ := C78_exact h XRun.dram_inputs (by decide) (fun _ => rfl) one_pos
    (by decide) (fun v => by simp [XRun.user]) (show (1 : ℤ) < 3 by decide) (fun _ => XRun.dram_supports) rfl
    (show XRun.data.n ≠ [] by decide) ht hq Matrix.PosDef.one (ds := [5]) rfl (fun _ _ _ _ => ⟨0, rfl⟩)
    (fun θ ss hs => by
      obtain ⟨v, hv, hs⟩ := hs
      unfold SosValue XRun.user at hs
      simp only [if_true, reduceCtorEq, false_and, or_false] at hs
      have h0 : v 0 ∈ List.ofFn (finVec θ) := hv.1 ▸ List.mem_map.2 ⟨0, by decide, rfl⟩
      obtain ⟨i, hi⟩ := List.mem_ofFn.1 h0
      refine ⟨fun _ => θ i * θ i, ?_⟩
      rw [← Except.ok.inj hs]
      funext k
      rw [← hi, finVec, fin_mul]
      rfl)
    (fun _ => ⟨1 / 2, by norm_num, by norm_num, rfl⟩) (fun c hc => by rw [hs2] at hc; cases hc)
    (fun _ => by
      obtain ⟨ms1, c1, c2, c3⟩ := hst.init.ms
      rw [hst.ms, hst.data] at c1
      exact ⟨fun _ => 1, fun _ => one_pos, XRun.settings_sigma2 c1 c2 c3⟩)
  have hlen' : (out.final.moveLog.length : ℤ) + 1 = 3 := hlen
  have hm2 : out.final.moveLog.length = 2 := by omega
  obtain ⟨r, hr⟩ : ∃ r, out.final.moveLog[0]? = some r := ⟨_, List.getElem?_eq_getElem (by omega)⟩
  obtain ⟨ts, hts⟩ : ∃ r, out.final.trace[0]? = some r := ⟨_, List.getElem?_eq_getElem (by omega)⟩
  obtain ⟨x, q, v, r0, A, W, P, st, -, -, -, -, -, -, -, -, e1, e2, -, -, e3⟩ := g 0 r ts hr hts
  obtain ⟨_, _, _, _, _, _, _, hmv⟩ := C72_decisions .start (by decide) (fun _ => rfl) h
  obtain ⟨-, -, -, -, -, -, t, ts', rfl, -⟩ := hmv 0 r ts hr hts
  obtain ⟨⟨-, -, -, -, u, -, -, -, e4⟩, -⟩ := e3 0 t rfl
  refine ⟨out, ts', t, A, W, P, u, h, hm2, hts, ?_, e2 (show (1 : ℤ) < 2 by decide) 1 (show 1 < 2 by decide), e4⟩
  rw [e1 (show (1 : ℤ) < 2 by decide) 1]
  simp [stageScale, scaleEntry]

end Verif
