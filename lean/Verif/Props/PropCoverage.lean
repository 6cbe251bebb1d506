import Verif.Props.PropOutput

/-! # Prediction intervals of `propagation` cover what they claim

C129: the bands of `plot_intervals`, computed from the arrays `credible` and `prediction` that `calculate_intervals`
returns for a run of the sampler, contain the model response with the posterior probability, and a new observation with
the posterior predictive probability, that they are labelled with, for every quantity of interest. -/

set_option linter.unusedSectionVars false

namespace Verif
open MeasureTheory Function ProbabilityTheory
open scoped ENNReal Matrix

section values

theorem XR.one_mul_all (x : XR) : lit 1 * x = x ∧ x * lit 1 = x := by
  have h : ((1 : ℚ) : ℝ) = 1 := by norm_num
  cases x with
  | fin a => simp
  | nan => exact ⟨rfl, rfl⟩
  | pinf =>
    have : XR.infMul ((1 : ℚ) : ℝ) = .pinf := by rw [h, XR.infMul, if_pos one_pos]
    exact ⟨this, this⟩
  | ninf =>
    have : XR.neg (XR.infMul ((1 : ℚ) : ℝ)) = .ninf := by rw [h, XR.infMul, if_pos one_pos]; rfl
    exact ⟨this, this⟩

/-- an observation with finite numbers -/
theorem obsElem_fin {sst : ℤ} {y z v : ℝ} (hv : 0 ≤ v) (hy : sst = 1 → 0 ≤ y) :
    obsElem sst (XR.fin y) (.fin z) (.fin v) = .fin (observed Real.sqrt Real.exp sst y (z * Real.sqrt v)) := by
  unfold obsElem observed
  rw [XR.sqrt_fin hv]
  split_ifs with h0 h1
  · rfl
  · rw [XR.sqrt_fin (hy h1), sq]; rfl
  · rfl

variable {X : Type} [MeasurableSpace X] {π : Measure X} [IsProbabilityMeasure π] {r : ℕ} {g : X → Fin r → ℝ}

/-- For all limits between 0 and 100 the bands of the sample `rows` are one per limit, the wider first, and the band of
limit `l` contains `g` at each point with probability `l/100`, up to `η`. -/
def BandsCover (π : Measure X) (g : X → Fin r → ℝ) (η : ℝ) (rows : List (Fin r → ℝ)) : Prop :=
  ∀ limits default, (∀ l ∈ limits.getD default, 0 ≤ l ∧ l ≤ 100) →
    ∃ bands ls, intervalBands rows limits default = .ok bands ∧ ls.Perm (limits.getD default) ∧
      ls.Pairwise (· ≥ ·) ∧ List.Forall₂ (fun l B => Covers π g (l / 100) η B) ls bands

theorem bandsCover_of (hg : ∀ i, Measurable fun z => g z i) {η : ℝ} (hη : 0 < η) {M : ℕ} (hM : 2 ≤ M)
    {v : ℕ → Fin r → ℝ}
    (h : ∀ i p, 0 ≤ p → p ≤ 1 → ∀ q,
      q = interpAt ((List.ofFn fun k : Fin M => v k i).insertionSort (· ≤ ·)) (((M : ℝ) - 1) * p) →
      p - η / 2 ≤ π.real {z | g z i ≤ q} ∧ π.real {z | g z i < q} ≤ p + η / 2) :
    BandsCover π g η (List.ofFn fun k : Fin M => v k) := by
  intro limits default hl
  refine bands_cover hg hη (fun ps hps => ?_) hl
  rw [empiricalQuantiles_ok (by simpa using hM) hps]
  refine ⟨_, rfl, by simp, fun a p q hp hq i => ?_⟩
  rw [List.getElem?_map, hp] at hq
  cases hq
  have := hps p (List.mem_of_getElem? hp)
  refine h i p this.1 this.2 _ ?_
  rw [List.length_ofFn]
  dsimp only
  rw [List.map_ofFn]
  rfl

/-- the entries of a returned array, as extended numbers -/
theorem ofFn_finVec {M : ℕ} (v : ℕ → Fin r → ℝ) :
    (List.ofFn fun k : Fin M => List.ofFn fun i => XR.fin (v k i)) =
      (List.ofFn fun k : Fin M => v k).map fun y => List.ofFn (finVec y) := by
  rw [List.map_ofFn]; rfl

end values

section rows
variable {N : ℕ} {flags : Fin N → Bool}

/-- the model returns the responses `g θ`: `r` points of `c` quantities -/
def GivesOutput {D : Type} (specs : Fin N → ParamSpec XR) (model : Vec XR N → D → Except PyErr (ModelOut XR)) (d : D)
    {r c : ℕ} (g : (Fin (nS flags) → ℝ) → Fin r → Fin c → ℝ) : Prop :=
  ∀ θ w, BelongsTo flags specs (finVec θ) w →
    ∃ z, model w d = .ok z ∧ OutputIs z fun i j => XR.fin (g θ i j)

/-- the arrays returned for the rows after a burn-in `b` -/
theorem returned_rows {D R : Type} {specs sp : Fin N → ParamSpec XR} {x : Fin (nS flags) → ℝ}
    (hsp : StartsAt flags specs x sp) {last : Vec XR (nS flags)} {theta : Vec XR N}
    (ht : BelongsTo flags sp last theta) {model : Vec XR N → D → Except PyErr (ModelOut XR)} {d : D} {rr c : ℕ}
    (hc : 1 ≤ c) {g : (Fin (nS flags) → ℝ) → Fin rr → Fin c → ℝ} (hmod : GivesOutput specs model d g) (rest : R)
    {chain : List (Vec XR (nS flags))} {t : ℕ → Fin (nS flags) → ℝ} {b n : ℕ} (hn0 : 0 < n)
    (hch : ∀ j, j < n → chain[b + j]? = some (finVec (t (b + j)))) {iis : List ℤ}
    (hi : iis.length = n) {s2 : XR ⊕ S2Chain XR} {V : ℕ → Fin c → ℝ} (hV : ∀ kk < n, ∀ jj, 0 ≤ V kk jj)
    (hs2 : ∀ kk < n, ∀ jj : Fin c, VarianceOf s2 (chain.drop b).length c kk jj (.fin (V kk jj)))
    {sst : ℤ} (hsst : sst = 0 ∨ sst = 1 ∨ sst = 2) (hroot : sst = 1 → ∀ θ i j, 0 ≤ g θ i j)
    (noise : ℕ → ℕ → ℕ → ℝ) :
    ∃ res st cols, calculateIntervals (chain.drop b) ⟨parindOf flags, theta, rest⟩ d model s2
        (propObs sst fun kk jj i => .fin (noise kk jj i)) iis = .ok (res, st) ∧
      intervalsReturned false st = .ok cols ∧ cols.length = c ∧
      ∀ jj : Fin c, cols[jj.val]? = some
        ((List.ofFn fun k : Fin n => fun i => g (t (b + k)) i jj).map fun y => List.ofFn (finVec y),
          some ((List.ofFn fun k : Fin n => fun i => observed Real.sqrt Real.exp sst (g (t (b + k)) i jj)
            (noise k jj i * Real.sqrt (V k jj))).map fun y => List.ofFn (finVec y))) := by
  subst hi
  have hlen : iis.length ≤ (chain.drop b).length := by
    rw [List.length_drop]
    have := (List.getElem?_eq_some_iff.1 (hch (iis.length - 1) (by omega))).1
    omega
  obtain ⟨res, st, h1, h2⟩ := output_values XR.one_mul_all (parindOf_injective flags) (chain := chain.drop b)
    (theta := theta) rest (data := d) (model := model) (iis := iis) (List.ne_nil_of_length_pos hn0) hlen hc
    (Y := fun kk i j => XR.fin (g (t (b + kk)) i j)) (fun kk row hkk hrow w hw => by
      rw [List.getElem?_drop, hch kk hkk] at hrow
      cases hrow
      exact hmod _ w (atRow_belongsTo hsp ht hw))
    (s2 := s2) (V := fun kk jj => if h : jj < c then .fin (V kk ⟨jj, h⟩) else .nan)
    (.inr fun kk hkk jj hjj => by rw [dif_pos hjj]; exact hs2 kk hkk ⟨jj, hjj⟩) hsst
    (fun kk jj i => .fin (noise kk jj i)) (noS2 := false) (by
      refine ⟨fun h => (by cases h), ?_⟩
      rintro rfl
      exact absurd (hs2 0 hn0 ⟨0, by omega⟩) id)
  refine ⟨res, st, _, h1, h2, by simp, fun jj => ?_⟩
  rw [List.getElem?_ofFn, dif_pos jj.2]
  refine congrArg some (Prod.ext ?_ ?_)
  · exact ofFn_finVec fun k i => g (t (b + k)) i jj
  · rw [← ofFn_finVec fun k i => observed Real.sqrt Real.exp sst (g (t (b + k)) i jj) (noise k jj i * Real.sqrt (V k jj))]
    change some _ = some _
    congr 2
    funext k
    congr 1
    funext i
    rw [dif_pos jj.2]
    exact obsElem_fin (hV k k.2 jj) fun h => hroot h _ _ _

end rows

/-- the observations of a response and a normal draw, with a variance -/
theorem measurable_obs {Y : Type} [MeasurableSpace Y] {f v : Y → ℝ} (hf : Measurable f) (hv : Measurable v) (sst : ℤ) :
    Measurable fun z : Y × ℝ => observed Real.sqrt Real.exp sst (f z.1) (z.2 * Real.sqrt (v z.1)) :=
  measurable_observed (hf.comp measurable_fst) (measurable_snd.mul (hv.comp measurable_fst).sqrt) sst

section window
variable {σ : Type} [MeasurableSpace σ] {μ : Measure σ} [IsProbabilityMeasure μ] {X : Type} [MeasurableSpace X]
  {T : X × σ → X × σ} {π : Measure X}

/-- bands of responses and of observations, along the rows of a chain -/
theorem Harris.bands (H : Harris μ T π) {S : Set X} (hS : MeasurableSet S) (hsp : ∀ x ∈ S, Spreads μ T π x)
    (keep : ∀ x ∈ S, ∀ᵐ s ∂μ, (T (x, s)).1 ∈ S) (hπS : π Sᶜ = 0) {x : X} (hx : x ∈ S) {η ε : ℝ}
    (hη : 0 < η) (hε : 0 < ε) {r c : ℕ} {f : X → Fin r → Fin c → ℝ} (hf : ∀ i j, Measurable fun y => f y i j)
    {v : X → Fin c → ℝ} (hv : ∀ j, Measurable fun y => v y j) (sst : ℤ) {ν : Measure (ℝ × (ℕ → ℕ → ℕ → ℝ))}
    (hν : IdealDraws ν) :
    ∃ K : ℕ, 2 ≤ K ∧ ∀ n b, K ≤ n → b ≤ n →
      ∃ B : Set (σ × (ℕ → ℝ × (ℕ → ℕ → ℕ → ℝ))), MeasurableSet B ∧
        (μ.prod (Measure.infinitePi fun _ : ℕ => ν)).real B ≤ ε ∧ ∀ z, z ∉ B → ∀ jj : Fin c,
          BandsCover π (fun y i => f y i jj) η
            (List.ofFn fun k : Fin n => fun i => f (T^[b + k] (x, z.1)).1 i jj) ∧
          BandsCover (π.prod (gaussianReal 0 1))
            (fun y i => observed Real.sqrt Real.exp sst (f y.1 i jj) (y.2 * Real.sqrt (v y.1 jj))) η
            (List.ofFn fun k : Fin n => fun i => observed Real.sqrt Real.exp sst (f (T^[b + k] (x, z.1)).1 i jj)
              ((z.2 k).2 jj i 0 * Real.sqrt (v (T^[b + k] (x, z.1)).1 jj))) := by
  have hprob := H.prob
  have hνp := hν.prob
  obtain ⟨K, hK2, hK⟩ := H.resampled hS hsp keep hπS hx (η := η / 2) (ε := ε) (by positivity) hε
    (ι := (Fin r × Fin c) × Bool) (γ := gaussianReal 0 1)
    (V := fun a z => if a.2 then observed Real.sqrt Real.exp sst (f z.1 a.1.1 a.1.2) (z.2 * Real.sqrt (v z.1 a.1.2))
      else f z.1 a.1.1 a.1.2)
    (fun a => by
      obtain ⟨a, c⟩ := a
      cases c with
      | false => exact (hf a.1 a.2).comp measurable_fst
      | true => exact measurable_obs (hf a.1 a.2) (hv a.2) sst) (ν := ν)
    (u := Prod.fst) measurable_fst (ζ := fun a w => w.2 a.1.2 a.1.1 0)
    (fun a => (measurable_pi_apply _).comp ((measurable_pi_apply _).comp
      ((measurable_pi_apply _).comp measurable_snd))) fun a => hν a.1.2 a.1.1 0
  refine ⟨K, hK2, fun n b hKn hbn => ?_⟩
  obtain ⟨B, hB, hBε, hgood⟩ := hK n b n hKn le_rfl hbn true fun _ => rfl
  refine ⟨B, hB, hBε, fun z hz jj => ⟨?_, ?_⟩⟩
  · refine bandsCover_of (fun i => hf i jj) hη (hK2.trans hKn) (v := fun k i => f (T^[b + k] (x, z.1)).1 i jj)
      fun i p p0 p1 q hq => ?_
    have := hgood z.1 z.2 hz ((i, jj), false) p p0 p1 q hq
    have hpr : ∀ E : Set X, (π.prod (gaussianReal 0 1)).real {z | z.1 ∈ E} = π.real E := fun E => by
      rw [show {z : X × ℝ | z.1 ∈ E} = E ×ˢ Set.univ by ext z; simp, measureReal_prod_prod]
      simp
    rw [← hpr, ← hpr]
    exact this
  · exact bandsCover_of (fun i => measurable_obs (hf i jj) (hv jj) sst) hη (hK2.trans hKn)
      (v := fun k i => observed Real.sqrt Real.exp sst (f (T^[b + k] (x, z.1)).1 i jj)
        ((z.2 k).2 jj i 0 * Real.sqrt (v (T^[b + k] (x, z.1)).1 jj)))
      fun i p p0 p1 q hq => hgood z.1 z.2 hz ((i, jj), true) p p0 p1 q hq

end window

section fixed
variable {σ : Type} [MeasurableSpace σ] {μ : Measure σ} {G : Rng σ XR} {N m : ℕ} {flags : Fin N → Bool}
  [IsProbabilityMeasure μ] {U : UserFuns XR N (nS flags) m} {L : Lapack XR}
  {specs : Fin N → ParamSpec XR} {sp : (Fin (nS flags) → ℝ) → Fin N → ParamSpec XR} {opts : SimOpts XR}
  {extra : ExtraOpts XR (nS flags)} {ms : ModelSettings XR} {data : Data}
  {q : (Fin (nS flags) → ℝ) → Fin m → ℝ} {r : (Fin (nS flags) → ℝ) → ℝ} {v : Fin m → ℝ}

/-- error variances that are given to `calculate_intervals` by hand: a number, an array with a single number, or an array
with a number for every quantity -/
def GivenVariances {c : ℕ} (s2 : XR ⊕ S2Chain XR) (V : Fin c → ℝ) : Prop :=
  (∃ v, (s2 = .inl (.fin v) ∨ s2 = .inr (.one [.fin v])) ∧ ∀ jj, V jj = v) ∨
  s2 = .inr (.one (List.ofFn (finVec V)))

theorem GivenVariances.of {c : ℕ} {s2 : XR ⊕ S2Chain XR} {V : Fin c → ℝ} (h : GivenVariances s2 V) {n : ℕ}
    (hn : c < n) (hn1 : 1 < n) (kk : ℕ) (jj : Fin c) : VarianceOf s2 n c kk jj (.fin (V jj)) := by
  rcases h with ⟨v, rfl | rfl, hv⟩ | rfl
  · exact congrArg XR.fin (hv jj)
  · exact .inr ⟨by simp; omega, .inr ⟨rfl, by rw [hv jj]; rfl⟩⟩
  · exact .inr ⟨by simp; omega, .inl ⟨by simp, by simp [finVec]⟩⟩

/-- **C129** with fixed error variances: take a run from any start within the limits, drop a burn-in `b`, and let
`calculate_intervals` evaluate a model with `c` quantities of interest at `nsample` rows, with error variances given by
hand.  If the number of rows used is large enough and not less than the burn-in, then with probability at least `1 - ε`
the run and the evaluation succeed and, for every quantity, the bands of `credible` contain the model response with the
posterior probability of their limits, and the bands of `prediction` contain a new observation with the posterior
predictive probability of their limits, up to `η`, at every point. -/
theorem C129_prediction {D R : Type}
    (H : ∀ k : ℤ, 1 < k → FixedProblem U G L specs sp { opts with nsimu := k } extra ms data q r v)
    (D1 : IdealRng G (nS flags) μ) (hZ0 : posteriorMeasure flags specs q r v Set.univ ≠ 0)
    (hZt : posteriorMeasure flags specs q r v Set.univ ≠ ⊤) {x : Fin (nS flags) → ℝ}
    (hx : InLimits flags specs (finVec x)) {η ε : ℝ} (hη : 0 < η) (hε : 0 < ε)
    {model : Vec XR N → D → Except PyErr (ModelOut XR)} {d : D} {rr c : ℕ} (hc : 1 ≤ c)
    {g : (Fin (nS flags) → ℝ) → Fin rr → Fin c → ℝ}
    (hg : ∀ i j, Measurable fun θ => g θ i j) (hmod : GivesOutput specs model d g) (rest : R)
    {s2 : XR ⊕ S2Chain XR} {V : Fin c → ℝ} (hs2 : GivenVariances s2 V) (hV : ∀ jj, 0 ≤ V jj)
    {sst : ℤ} (hsst : sst = 0 ∨ sst = 1 ∨ sst = 2) (hroot : sst = 1 → ∀ θ i j, 0 ≤ g θ i j)
    {ν : Measure (ℝ × (ℕ → ℕ → ℕ → ℝ))} (hν : IdealDraws ν) :
    ∃ K : ℕ, ∀ k b nsample : ℕ, K ≤ min nsample (k - b) → b ≤ min nsample (k - b) → ∀ fuel,
      1 - ε ≤ (μ.prod (Measure.infinitePi fun _ : ℕ => ν)).real {z | ∃ out res st cols,
        runSimulation U G L fuel (newObj (sp x) { opts with nsimu := k } extra ms data) z.1 false = .ok out ∧
        calculateIntervals (out.results.chain.drop b) ⟨parindOf flags, out.results.theta, rest⟩ d model s2
          (propObs sst fun kk jj i => .fin ((z.2 kk).2 jj i 0))
          (defineSamplePoints nsample (out.results.chain.drop b).length
            (List.ofFn fun k : Fin nsample => (z.2 k).1)).1 = .ok (res, st) ∧
        intervalsReturned false st = .ok cols ∧ cols.length = c ∧
        ∀ jj : Fin c, ∃ C P : List (Fin rr → ℝ), cols[jj.val]? =
            some (C.map (fun y => List.ofFn (finVec y)), some (P.map fun y => List.ofFn (finVec y))) ∧
          BandsCover (posteriorLaw flags specs q r v) (fun θ i => g θ i jj) η C ∧
          BandsCover ((posteriorLaw flags specs q r v).prod (gaussianReal 0 1))
            (fun y i => observed Real.sqrt Real.exp sst (g y.1 i jj) (y.2 * Real.sqrt (V jj))) η P} := by
  obtain ⟨hS0, T, hT, hsp, hkeep, hrun⟩ := fixed_harris H D1 hZ0 hZt
  have hprob := hT.prob
  have hνp := hν.prob
  obtain ⟨K, hK2, hK⟩ := hT.bands (measurableSet_inLimits specs) hsp
    (fun y hy => ae_of_all _ fun s => hkeep y hy s) hS0 hx hη hε (f := g) hg (v := fun _ => V) (fun _ => measurable_const)
    sst hν
  refine ⟨max K (c + 2), fun k b nsample hKn hbn fuel => ?_⟩
  obtain ⟨n, hn⟩ : ∃ n, n = min nsample (k - b) := ⟨_, rfl⟩
  rw [← hn] at hKn hbn
  obtain ⟨B, hB, hBε, hgood⟩ := hK n b (by omega) hbn
  calc 1 - ε ≤ 1 - (μ.prod (Measure.infinitePi fun _ : ℕ => ν)).real B := by linarith
    _ = (μ.prod (Measure.infinitePi fun _ : ℕ => ν)).real Bᶜ := (probReal_compl_eq_one_sub hB).symm
    _ ≤ _ := by
      refine measureReal_mono fun z hz => ?_
      obtain ⟨out, ho, hr⟩ := hrun k (by omega) x hx z.1 fuel
      obtain ⟨hlen0, -, -, last, -, hlast⟩ := C02_chain_records_moves ((H k (by omega)).valid x hx).noRestart ho
      have hlen : (out.results.chain.length : ℤ) = k := hlen0
      have hdl : (out.results.chain.drop b).length = k - b := by rw [List.length_drop]; omega
      obtain ⟨res, st, cols, h1, h2, h3, h4⟩ := returned_rows ((H 2 (by norm_num)).starts x) hlast hc hmod rest
        (t := fun j => (T^[j] (x, z.1)).1) (b := b) (n := n) (by omega) (fun j hj => hr _ (by omega))
        (iis := (defineSamplePoints nsample (k - b) (List.ofFn fun k : Fin nsample => (z.2 k).1)).1)
        (by rw [samplePoints_length _ _ _ (by simp), hn]) (V := fun _ => V) (fun _ _ => hV)
        (fun kk _ jj => hs2.of (by omega) (by omega) kk jj) hsst hroot (fun kk jj i => (z.2 kk).2 jj i 0)
      refine ⟨out, res, st, cols, ho, by rw [hdl]; exact h1, h2, h3, fun jj => ⟨_, _, h4 jj, ?_⟩⟩
      exact hgood z hz jj

end fixed

section joint
variable {σ : Type} [MeasurableSpace σ] {μ : Measure σ} [IsProbabilityMeasure μ] {G : Rng σ XR} {N m : ℕ}
  {flags : Fin N → Bool} {U : UserFuns XR N (nS flags) m} {L : Lapack XR}
  {specs : Fin N → ParamSpec XR} {sp : (Fin (nS flags) → ℝ) → Fin N → ParamSpec XR} {opts : SimOpts XR}
  {extra : ExtraOpts XR (nS flags)} {ms : (Fin m → ℝ) → ModelSettings XR} {data : Data}
  {q : (Fin (nS flags) → ℝ) → Fin m → ℝ} {r : (Fin (nS flags) → ℝ) → ℝ} {Nobs N0 S20 : Fin m → ℝ}
  {dom : Set ((Fin (nS flags) → ℝ) × (Fin m → ℝ))}

/-- the error variance of quantity `jj`: the only one, or that of the same place -/
def varFor {m c : ℕ} (hm : m = 1 ∨ m = c) (jj : Fin c) : Fin m :=
  if h : m = 1 then ⟨0, by omega⟩ else ⟨jj, by have := jj.2; omega⟩

/-- **C129** with sampled error variances: as `C129_prediction`, with the chain of error variances of the run given to
`calculate_intervals`, without its first `b` rows.  There is one variance for all quantities or one for each.  A new
observation has the variance of its quantity, parameters and variances being distributed by the posterior. -/
theorem C129_prediction_joint {D R : Type}
    (H : ∀ k : ℤ, 1 < k → JointProblem U G L specs sp { opts with nsimu := k } extra ms data q r Nobs N0 S20 dom)
    (D0 : IdealRng G (nS flags) μ) (D1 : IdealRng G 1 μ)
    (hZ0 : jointPosterior flags specs q r Nobs N0 S20 Set.univ ≠ 0)
    (hZt : jointPosterior flags specs q r Nobs N0 S20 Set.univ ≠ ⊤)
    {p : (Fin (nS flags) → ℝ) × (Fin m → ℝ)} (hpd : p ∈ dom) {η ε : ℝ} (hη : 0 < η) (hε : 0 < ε)
    {model : Vec XR N → D → Except PyErr (ModelOut XR)} {d : D} {rr c : ℕ} (hc : 1 ≤ c)
    {g : (Fin (nS flags) → ℝ) → Fin rr → Fin c → ℝ}
    (hg : ∀ i j, Measurable fun θ => g θ i j) (hmod : GivesOutput specs model d g) (rest : R) (hm : m = 1 ∨ m = c)
    {sst : ℤ} (hsst : sst = 0 ∨ sst = 1 ∨ sst = 2) (hroot : sst = 1 → ∀ θ i j, 0 ≤ g θ i j)
    {ν : Measure (ℝ × (ℕ → ℕ → ℕ → ℝ))} (hν : IdealDraws ν) :
    ∃ K0 : ℕ, ∀ k b nsample : ℕ, K0 ≤ min nsample (k - b) → b ≤ min nsample (k - b) →
      1 - ε ≤ (μ.prod (Measure.infinitePi fun _ : ℕ => ν)).real {z | ∃ K, ∀ fuel, K ≤ fuel → ∃ out s2 res st cols,
        runSimulation U G L fuel (newObj (sp p.1) { opts with nsimu := k } extra (ms p.2) data) z.1 false = .ok out ∧
        out.results.s2chain = some s2 ∧
        calculateIntervals (out.results.chain.drop b) ⟨parindOf flags, out.results.theta, rest⟩ d model
          (.inr (.two m (s2.drop b))) (propObs sst fun kk jj i => .fin ((z.2 kk).2 jj i 0))
          (defineSamplePoints nsample (out.results.chain.drop b).length
            (List.ofFn fun k : Fin nsample => (z.2 k).1)).1 = .ok (res, st) ∧
        intervalsReturned false st = .ok cols ∧ cols.length = c ∧
        ∀ jj : Fin c, ∃ C P : List (Fin rr → ℝ), cols[jj.val]? =
            some (C.map (fun y => List.ofFn (finVec y)), some (P.map fun y => List.ofFn (finVec y))) ∧
          BandsCover (jointLaw flags specs q r Nobs N0 S20) (fun y i => g y.1 i jj) η C ∧
          BandsCover ((jointLaw flags specs q r Nobs N0 S20).prod (gaussianReal 0 1))
            (fun y i => observed Real.sqrt Real.exp sst (g y.1.1 i jj) (y.2 * Real.sqrt (y.1.2 (varFor hm jj)))) η P} := by
  obtain ⟨hS0, T, hT, hsp, hkeep, hrun⟩ := joint_harris H D0 D1 hZ0 hZt ⟨p, hpd⟩
  have hprob := hT.prob
  have hνp := hν.prob
  have hp := (H 2 (by norm_num)).within p hpd
  have hpos : ∀ᵐ s ∂μ, ∀ j, (T^[j] (p, s)).1 ∈
      {p : (Fin (nS flags) → ℝ) × (Fin m → ℝ) | InLimits flags specs (finVec p.1) ∧ ∀ j, 0 < p.2 j} :=
    ae_all_iff.2 fun j => keeps_iterate hT.fresh (measurableSet_jointStarts flags specs m) hkeep j p hp
  obtain ⟨K, hK2, hK⟩ := hT.bands (measurableSet_jointStarts flags specs m) hsp hkeep hS0 hp hη hε
    (f := fun y => g y.1) (fun i j => (hg i j).comp measurable_fst) (v := fun y jj => y.2 (varFor hm jj))
    (fun jj => (measurable_pi_apply _).comp measurable_snd) sst hν
  refine ⟨K, fun k b nsample hKn hbn => ?_⟩
  obtain ⟨n, hn⟩ : ∃ n, n = min nsample (k - b) := ⟨_, rfl⟩
  rw [← hn] at hKn hbn
  obtain ⟨B, hB, hBε, hgood⟩ := hK n b hKn hbn
  calc 1 - ε ≤ 1 - (μ.prod (Measure.infinitePi fun _ : ℕ => ν)).real B := by linarith
    _ = (μ.prod (Measure.infinitePi fun _ : ℕ => ν)).real Bᶜ := (probReal_compl_eq_one_sub hB).symm
    _ ≤ _ := by
      refine ENNReal.toReal_mono (measure_ne_top _ _) (measure_mono_ae ?_)
      filter_upwards [Measure.quasiMeasurePreserving_fst.ae (hrun k (by omega) p hpd),
        Measure.quasiMeasurePreserving_fst.ae hpos] with z hs hin hz
      obtain ⟨K1, hK1⟩ := hs
      refine ⟨K1, fun fuel hfuel => ?_⟩
      obtain ⟨out, ho, s2, hs2, hr⟩ := hK1 fuel hfuel
      obtain ⟨hlen0, -, -, last, -, hlast⟩ := C02_chain_records_moves ((H k (by omega)).valid p hpd).noRestart ho
      have hlen : (out.results.chain.length : ℤ) = k := hlen0
      have hdl : (out.results.chain.drop b).length = k - b := by rw [List.length_drop]; omega
      have hs2l : s2.length = out.results.chain.length := by
        obtain ⟨-, n, hn, -, -, -, hcl, -, h2l, -⟩ := fresh_logs ho
        rw [h2l s2 hs2, ← hcl]
      obtain ⟨res, st, cols, h1, h2, h3, h4⟩ := returned_rows ((H 2 (by norm_num)).starts p.1) hlast hc hmod rest
        (t := fun j => (T^[j] (p, z.1)).1.1) (b := b) (n := n) (by omega) (fun j hj => (hr _ (by omega)).1)
        (iis := (defineSamplePoints nsample (k - b) (List.ofFn fun k : Fin nsample => (z.2 k).1)).1)
        (by rw [samplePoints_length _ _ _ (by simp), hn]) (s2 := .inr (.two m (s2.drop b)))
        (V := fun kk jj => (T^[b + kk] (p, z.1)).1.2 (varFor hm jj)) (fun kk _ jj => ((hin (b + kk)).2 _).le)
        (fun kk hkk jj => ⟨finVec (T^[b + kk] (p, z.1)).1.2, .inl ⟨by rw [List.length_drop, List.length_drop, hs2l], by
            rw [List.getElem?_drop]; exact (hr (b + kk) (by omega)).2⟩, by
            unfold varFor
            by_cases h : m = 1
            · refine .inr ⟨h, ?_⟩
              rw [List.getElem?_ofFn, dif_pos (by omega), dif_pos h]; rfl
            · have hmc : m = c := by omega
              refine .inl ⟨hmc, ?_⟩
              rw [List.getElem?_ofFn, dif_pos (by have := jj.2; omega), dif_neg h]; rfl⟩)
        hsst hroot (fun kk jj i => (z.2 kk).2 jj i 0)
      refine ⟨out, s2, res, st, cols, ho, hs2, by rw [hdl]; exact h1, h2, h3, fun jj => ⟨_, _, h4 jj, ?_⟩⟩
      exact hgood z hz jj

end joint

/-! ### Instances -/

/-- a model with two quantities at two points: the parameter and 5, its square and the parameter -/
noncomputable def XRun.model2 (w : Vec XR 1) (_ : Unit) : Except PyErr (ModelOut XR) :=
  .ok (.mat 2 2 fun i j => if j = 0 then (if i = 0 then w 0 else .fin 5) else if i = 0 then w 0 * w 0 else w 0)

/-- its responses -/
noncomputable def XRun.values2 (θ : Fin (nS XRun.flags) → ℝ) (i j : Fin 2) : ℝ :=
  if j = 0 then (if i = 0 then θ ⟨0, by decide⟩ else 5)
  else if i = 0 then θ ⟨0, by decide⟩ * θ ⟨0, by decide⟩ else θ ⟨0, by decide⟩

theorem XRun.model2_gives : GivesOutput (flags := XRun.flags) XRun.freeSpecs XRun.model2 () XRun.values2 := by
  intro θ w hw
  have h0 : w 0 = .fin (θ ⟨0, by decide⟩) := by
    have h1 : ([w 0] : List XR) = List.ofFn (finVec θ) := hw.1
    have h2 := congrArg (fun l : List XR => l[0]?) h1
    rw [List.getElem?_ofFn, dif_pos (by decide)] at h2
    exact Option.some.inj h2
  refine ⟨_, rfl, .inr ⟨le_rfl, le_rfl, ?_⟩⟩
  congr 1
  funext i j
  unfold XRun.values2
  rw [h0]
  split_ifs <;> rfl

theorem XRun.values2_measurable (i j : Fin 2) : Measurable fun θ : Fin (nS XRun.flags) → ℝ => XRun.values2 θ i j := by
  unfold XRun.values2
  split_ifs
  · exact measurable_pi_apply _
  · exact measurable_const
  · exact (measurable_pi_apply _).mul (measurable_pi_apply _)
  · exact measurable_pi_apply _

/-- C129 with the variances 4 and 9 for the two quantities: 95 percent of the new observations of the square at the first
point lie in the band of the second array `prediction`. -/
example : ∃ K : ℕ, ∀ k nsample : ℕ, K ≤ nsample → 1000 ≤ nsample → nsample + 1000 ≤ k →
    1 - 1 / 100 ≤ ((coinLaw (nS XRun.flags)).prod (Measure.infinitePi fun _ : ℕ => idealDraws)).real
      {z | ∃ out res st cols credible, ∃ P : List (Fin 2 → ℝ), ∃ lo hi,
        runSimulation XRun.user (coinRng (nS XRun.flags)) exactLapack 0
          (newObj (m := 1) (XRun.freeAt fun _ => 1000000) (defineSimulationOptions { nsimu := k, method := .dr })
            (XRun.extra 1 1) XRun.settings XRun.data) z.1 false = .ok out ∧
        calculateIntervals (out.results.chain.drop 1000) ⟨parindOf XRun.flags, out.results.theta, ()⟩ ()
          XRun.model2 (.inr (.one [.fin 4, .fin 9])) (propObs 0 fun kk jj i => .fin ((z.2 kk).2 jj i 0))
          (defineSamplePoints nsample (out.results.chain.drop 1000).length
            (List.ofFn fun k : Fin nsample => (z.2 k).1)).1 = .ok (res, st) ∧
        intervalsReturned false st = .ok cols ∧
        cols[1]? = some (credible, some (P.map fun y => List.ofFn (finVec y))) ∧
        intervalBands P none [95] = .ok [[lo, hi]] ∧
        95 / 100 - 1 / 100 ≤ ((posteriorLaw (m := 1) XRun.flags XRun.freeSpecs
            (fun θ _ => θ ⟨0, by decide⟩ * θ ⟨0, by decide⟩) (fun _ => 0) (fun _ => 1)).prod (gaussianReal 0 1)).real
          {y | lo 0 ≤ y.1 ⟨0, by decide⟩ * y.1 ⟨0, by decide⟩ + y.2 * 3 ∧
            y.1 ⟨0, by decide⟩ * y.1 ⟨0, by decide⟩ + y.2 * 3 ≤ hi 0}} := by
  obtain ⟨K, h⟩ := C129_prediction
    (opts := defineSimulationOptions { nsimu := 2, method := .dr }) XRun.freeProblem (coinIdeal _)
    XRun.free_mass.1 XRun.free_mass.2 (XRun.free_inLimits fun _ => 1000000) (η := 1 / 100) (ε := 1 / 100)
    (by norm_num) (by norm_num) (c := 2) (by omega) XRun.values2_measurable XRun.model2_gives ()
    (s2 := .inr (.one [.fin 4, .fin 9])) (V := ![4, 9]) (.inr rfl) (fun jj => by fin_cases jj <;> simp)
    (sst := 0) (.inl rfl) (fun h => by cases h) idealDraws_ideal
  have := idealDraws_ideal.prob
  refine ⟨K, fun k nsample h1 h2 h3 =>
    (h k 1000 nsample (by omega) (by omega) 0).trans (measureReal_mono fun z hz => ?_)⟩
  obtain ⟨out, res, st, cols, ho, hc, hr, -, hcol⟩ := hz
  obtain ⟨C, P, e1, -, e2⟩ := hcol 1
  obtain ⟨bands, ls, hB, hp, -, hf⟩ := e2 none [95] (by
    intro l hl
    simp only [Option.getD_none, List.mem_cons, List.not_mem_nil, or_false] at hl
    subst hl; norm_num)
  obtain rfl := List.perm_singleton.1 hp
  cases hf with
  | cons f1 hf => cases hf with
    | nil =>
      obtain ⟨lo, hi, rfl, h95⟩ := f1
      refine ⟨out, res, st, cols, _, P, lo, hi, ho, hc, hr, e1, hB, ?_⟩
      have := (h95 0).1
      have h9 : Real.sqrt 9 = 3 := by
        rw [show (9 : ℝ) = 3 ^ 2 by norm_num]; exact Real.sqrt_sq (by norm_num)
      simpa [observed, XRun.values2, h9] using this

/-- C129 with a sampled variance, used for both quantities. -/
example : ∃ K0 : ℕ, ∀ k nsample : ℕ, K0 ≤ nsample → 1000 ≤ nsample → nsample + 1000 ≤ k →
    1 - 1 / 100 ≤ ((coinLaw (nS XRun.flags)).prod (Measure.infinitePi fun _ : ℕ => idealDraws)).real
      {z | ∃ K, ∀ fuel, K ≤ fuel → ∃ out s2 res st cols credible, ∃ P : List (Fin 2 → ℝ), ∃ lo hi,
        runSimulation XRun.user (coinRng (nS XRun.flags)) exactLapack fuel
          (newObj (m := 1) (XRun.freeAt fun _ => 1000000)
            (defineSimulationOptions { nsimu := k, method := .dr, updatesigma := true })
            (XRun.extra 1 1) (XRun.settingsAt fun _ => 2) XRun.data) z.1 false = .ok out ∧
        out.results.s2chain = some s2 ∧
        calculateIntervals (out.results.chain.drop 1000) ⟨parindOf XRun.flags, out.results.theta, ()⟩ ()
          XRun.model2 (.inr (.two 1 (s2.drop 1000))) (propObs 0 fun kk jj i => .fin ((z.2 kk).2 jj i 0))
          (defineSamplePoints nsample (out.results.chain.drop 1000).length
            (List.ofFn fun k : Fin nsample => (z.2 k).1)).1 = .ok (res, st) ∧
        intervalsReturned false st = .ok cols ∧
        cols[1]? = some (credible, some (P.map fun y => List.ofFn (finVec y))) ∧
        intervalBands P none [95] = .ok [[lo, hi]] ∧
        95 / 100 - 1 / 100 ≤ ((jointLaw (m := 1) XRun.flags XRun.freeSpecs
          (fun θ _ => θ ⟨0, by decide⟩ * θ ⟨0, by decide⟩) (fun _ => 0) (fun _ => 5) (fun _ => 1) (fun _ => 1)).prod
            (gaussianReal 0 1)).real
          {y | lo 0 ≤ y.1.1 ⟨0, by decide⟩ * y.1.1 ⟨0, by decide⟩ + y.2 * Real.sqrt (y.1.2 0) ∧
            y.1.1 ⟨0, by decide⟩ * y.1.1 ⟨0, by decide⟩ + y.2 * Real.sqrt (y.1.2 0) ≤ hi 0}} := by
  have D1 : IdealRng (coinRng (nS XRun.flags)) 1 (coinLaw (nS XRun.flags)) := by
    rw [XRun.nS_flags]; exact coinIdeal 1
  obtain ⟨K0, h⟩ := C129_prediction_joint
    (opts := defineSimulationOptions { nsimu := 2, method := .dr, updatesigma := true }) XRun.freeJoint
    (coinIdeal _) D1 XRun.freeJoint_mass.1 XRun.freeJoint_mass.2 (p := (fun _ => 1000000, fun _ => 2))
    ⟨XRun.free_inLimits _, fun _ => by norm_num⟩ (η := 1 / 100) (ε := 1 / 100) (by norm_num)
    (by norm_num) (c := 2) (by omega) XRun.values2_measurable XRun.model2_gives () (.inl rfl) (sst := 0) (.inl rfl)
    (fun h => by cases h) idealDraws_ideal
  have := idealDraws_ideal.prob
  refine ⟨K0, fun k nsample h1 h2 h3 =>
    (h k 1000 nsample (by omega) (by omega)).trans (measureReal_mono fun z hz => ?_)⟩
  obtain ⟨K, hz⟩ := hz
  refine ⟨K, fun fuel hfuel => ?_⟩
  obtain ⟨out, s2, res, st, cols, ho, hs2, hc, hr, -, hcol⟩ := hz fuel hfuel
  obtain ⟨C, P, e1, -, e2⟩ := hcol 1
  obtain ⟨bands, ls, hB, hp, -, hf⟩ := e2 none [95] (by
    intro l hl
    simp only [Option.getD_none, List.mem_cons, List.not_mem_nil, or_false] at hl
    subst hl; norm_num)
  obtain rfl := List.perm_singleton.1 hp
  cases hf with
  | cons f1 hf => cases hf with
    | nil =>
      obtain ⟨lo, hi, rfl, h95⟩ := f1
      refine ⟨out, s2, res, st, cols, _, P, lo, hi, ho, hs2, hc, hr, e1, hB, ?_⟩
      have := (h95 0).1
      simpa [observed, XRun.values2, varFor] using this

end Verif
