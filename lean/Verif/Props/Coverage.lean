import Verif.Lemmas.Coverage
import Verif.Props.Estimates
import Verif.Props.Propagation

/-! # Intervals cover what they claim

C118: the bands of `plot_intervals`, computed by `calculate_intervals` from a run of the sampler, contain the
model response with the posterior probability they are labelled with, up to an error that vanishes as the
number of rows grows. -/

set_option linter.unusedSectionVars false

namespace Verif
open MeasureTheory Function ProbabilityTheory
open scoped ENNReal Matrix

/-! ### The credible sample -/

section sample
variable {F R D : Type} {N p : ℕ}

theorem propLoop_single {parind : Fin p → Fin N} (hinj : Function.Injective parind)
    {chain : List (Vec F p)} {data : D} {model : Vec F N → D → Except PyErr (ModelOut F)}
    {obs : ℕ → ℕ → S2Val F → ModelOut F → Except PyErr (List F)} {q0 : Vec F N} {y : ℕ → List F} :
    ∀ {iis : List ℤ} {kk : ℕ} {st : PropState F N},
      (∀ k, (∀ j, parind j ≠ k) → st.q k = q0 k) → st.multiple = false →
      (∀ i, i < iis.length → ∃ row, chain[kk + i]? = some row ∧ ∀ w, AtRow parind q0 w row →
        ∃ z, model w data = .ok z ∧ z.isMultiple = false ∧ z.flat = y (kk + i)) →
      ∃ st', propLoop parind chain data model .none obs kk iis st = .ok st' ∧
        st'.ci = st.ci ++ List.ofFn fun i : Fin iis.length => y (kk + i) := by
  intro iis
  induction iis with
  | nil => intro kk st _ _ _; exact ⟨st, rfl, by simp⟩
  | cons isa rest ih =>
    intro kk st hq hm hrows
    obtain ⟨row, hrow, hmod⟩ := hrows 0 (by simp)
    rw [Nat.add_zero] at hrow hmod
    have hat := setParams_atRow hinj hq row
    obtain ⟨z, hz, hz1, hz2⟩ := hmod _ hat
    have hstep : propStep parind chain data model .none obs kk isa st =
        .ok { st with q := setParams parind st.q row, ci := st.ci ++ [y kk],
                      evals := st.evals ++ [setParams parind st.q row] } := by
      unfold propStep pyGet
      rw [hrow]
      simp only [ok_bind]
      rw [hz]
      simp only [ok_bind, hm, hz1, Bool.or_self, if_true, hz2]
    obtain ⟨st', h1, h2⟩ := ih (kk := kk + 1)
      (st := { st with q := setParams parind st.q row, ci := st.ci ++ [y kk],
                       evals := st.evals ++ [setParams parind st.q row] }) hat.2 hm
      fun i hi => by
        obtain ⟨row', h1, h2⟩ := hrows (i + 1) (by simpa using hi)
        exact ⟨row', by rw [← h1]; congr 1; omega, fun w hw => by
          obtain ⟨z, e1, e2, e3⟩ := h2 w hw
          exact ⟨z, e1, e2, by rw [e3]; congr 1; omega⟩⟩
    refine ⟨st', ?_, ?_⟩
    · unfold propLoop
      rw [hstep]
      exact h1
    · rw [h2]
      simp only [List.append_assoc, List.singleton_append]
      congr 1
      have : (fun i : Fin rest.length => y (kk + 1 + i)) = fun i : Fin rest.length => y (kk + (i + 1 : ℕ)) := by
        funext i; congr 1; omega
      rw [this]
      exact (List.ofFn_succ (f := fun i : Fin (rest.length + 1) => y (kk + i))).symm

end sample

/-! ### Coverage of the bands -/

section bands
variable {X : Type} [MeasurableSpace X] {π : Measure X} [IsProbabilityMeasure π] {c : ℕ} {g : X → Fin c → ℝ}

/-- the band between `lo` and `hi` contains `g` with probability `u`, up to `η` -/
def Covers (π : Measure X) (g : X → Fin c → ℝ) (u η : ℝ) (B : List (Fin c → ℝ)) : Prop :=
  ∃ lo hi, B = [lo, hi] ∧ ∀ i, u - η ≤ π.real {z | lo i ≤ g z i ∧ g z i ≤ hi i} ∧
    π.real {z | lo i < g z i ∧ g z i < hi i} ≤ u + η

theorem bands_cover (hg : ∀ i, Measurable fun z => g z i) {rows : List (Fin c → ℝ)} {η : ℝ} (hη : 0 < η)
    (h : ∀ ps : List ℝ, (∀ p ∈ ps, 0 ≤ p ∧ p ≤ 1) → ∃ qs, empiricalQuantiles rows ps = .ok qs ∧
      qs.length = ps.length ∧ ∀ (a : ℕ) p q, ps[a]? = some p → qs[a]? = some q → ∀ i,
        p - η / 2 ≤ π.real {z | g z i ≤ q i} ∧ π.real {z | g z i < q i} ≤ p + η / 2)
    {limits : Option (List ℝ)} {default : List ℝ} (hl : ∀ l ∈ limits.getD default, 0 ≤ l ∧ l ≤ 100) :
    ∃ bands ls, intervalBands rows limits default = .ok bands ∧ ls.Perm (limits.getD default) ∧
      ls.Pairwise (· ≥ ·) ∧ List.Forall₂ (fun l B => Covers π g (l / 100) η B) ls bands := by
  have hperm := List.perm_insertionSort (· ≥ ·) (limits.getD default)
  have hs : (checkIntervalLimits limits default).Pairwise (· ≥ ·) := List.pairwise_insertionSort _ _
  have hl' : ∀ l ∈ checkIntervalLimits limits default, 0 ≤ l ∧ l ≤ 100 := fun l h => hl l (hperm.mem_iff.1 h)
  have key : ∀ ls : List ℝ, (∀ l ∈ ls, 0 ≤ l ∧ l ≤ 100) → ∃ bands,
      (convertLimits ls).mapM (empiricalQuantiles rows) = .ok bands ∧
      List.Forall₂ (fun l B => Covers π g (l / 100) η B) ls bands := by
    intro ls
    induction ls with
    | nil => intro _; exact ⟨[], rfl, .nil⟩
    | cons l ls ih =>
      intro hls
      obtain ⟨bands, hb, hf⟩ := ih fun l hl => hls l (List.mem_cons_of_mem _ hl)
      obtain ⟨l0, l1⟩ := hls l List.mem_cons_self
      obtain ⟨qs, hqs, hlen, hq⟩ := h [1 / 2 - l / 100 / 2, 1 / 2 + l / 100 / 2] (by
        intro p hp
        simp only [List.mem_cons, List.not_mem_nil, or_false] at hp
        rcases hp with rfl | rfl <;> constructor <;> linarith)
      obtain ⟨lo, hi, rfl⟩ : ∃ lo hi, qs = [lo, hi] := by
        match qs, hlen with
        | [lo, hi], _ => exact ⟨lo, hi, rfl⟩
      refine ⟨[lo, hi] :: bands, ?_, .cons ⟨lo, hi, rfl, fun i => ?_⟩ hf⟩
      · change (([1 / 2 - l / 100 / 2, 1 / 2 + l / 100 / 2] : List ℝ) :: convertLimits ls).mapM _ = _
        rw [List.mapM_cons, hqs, ok_bind, hb]
        rfl
      · obtain ⟨a1, a2⟩ := hq 0 _ _ rfl rfl i
        obtain ⟨b1, b2⟩ := hq 1 _ _ rfl rfl i
        constructor
        · have hsub : {z | g z i ≤ hi i} ⊆ {z | lo i ≤ g z i ∧ g z i ≤ hi i} ∪ {z | g z i < lo i} := by
            intro z hz
            rcases lt_or_ge (g z i) (lo i) with h | h
            · exact .inr h
            · exact .inl ⟨h, hz⟩
          have := (measureReal_mono (μ := π) hsub).trans (measureReal_union_le _ _)
          linarith
        · by_cases hlh : lo i < hi i
          · have hd : Disjoint {z | lo i < g z i ∧ g z i < hi i} {z | g z i ≤ lo i} := by
              rw [Set.disjoint_left]
              intro z h1 h2
              exact absurd h1.1 (not_lt.2 h2)
            have hu := measureReal_union (μ := π) hd (measurableSet_le (hg i) measurable_const)
            have hsub : {z | lo i < g z i ∧ g z i < hi i} ∪ {z | g z i ≤ lo i} ⊆ {z | g z i < hi i} := by
              rintro z (hz | hz)
              · exact hz.2
              · exact lt_of_le_of_lt hz hlh
            have := measureReal_mono (μ := π) hsub
            linarith
          · have : {z | lo i < g z i ∧ g z i < hi i} = ∅ := by
              ext z
              simp only [Set.mem_ofPred_eq, Set.mem_empty_iff_false, iff_false, not_and]
              intro h1 h2
              exact hlh (h1.trans h2)
            rw [this]
            simp
            positivity
  obtain ⟨bands, hb, hf⟩ := key _ hl'
  exact ⟨bands, _, hb, hperm, hs, hf⟩

end bands

section rows
variable {N : ℕ} {flags : Fin N → Bool}

theorem atRow_belongsTo {specs sp : Fin N → ParamSpec XR} {x : Fin (nS flags) → ℝ} (hsp : StartsAt flags specs x sp)
    {last row : Vec XR (nS flags)} {theta w : Vec XR N} (ht : BelongsTo flags sp last theta)
    (hw : AtRow (parindOf flags) theta w row) : BelongsTo flags specs row w := by
  refine ⟨?_, fun k hk => ?_⟩
  · have h1 : List.ofFn row = List.ofFn fun i => w (parindOf flags i) := by
      congr 1; funext i; exact (hw.1 i).symm
    rw [h1]
    change (sampledIdx flags).map w = List.ofFn fun i => w ((sampledIdx flags).get i)
    conv_lhs => rw [← List.ofFn_get (sampledIdx flags), List.map_ofFn]
    rfl
  · rw [hw.2 k (parindOf_ne_iff.2 hk), ht.2 k hk, hsp.2 k hk]

/-- the model returns the responses `g θ` as one column -/
def GivesColumn {D : Type} (specs : Fin N → ParamSpec XR) (model : Vec XR N → D → Except PyErr (ModelOut XR)) (d : D)
    {c : ℕ} (g : (Fin (nS flags) → ℝ) → Fin c → ℝ) : Prop :=
  ∀ θ w, BelongsTo flags specs (finVec θ) w →
    ∃ z, model w d = .ok z ∧ z.isMultiple = false ∧ z.flat = List.ofFn (finVec (g θ))

/-- `calculate_intervals` of the rows after a burn-in `b`: the responses at the first rows -/
theorem credible_rows {D R : Type} {specs sp : Fin N → ParamSpec XR} {x : Fin (nS flags) → ℝ}
    (hsp : StartsAt flags specs x sp) {last : Vec XR (nS flags)} {theta : Vec XR N}
    (ht : BelongsTo flags sp last theta) {model : Vec XR N → D → Except PyErr (ModelOut XR)} {d : D} {c : ℕ}
    {g : (Fin (nS flags) → ℝ) → Fin c → ℝ} (hmod : GivesColumn specs model d g) (rest : R)
    (obs : ℕ → ℕ → S2Val XR → ModelOut XR → Except PyErr (List XR)) {chain : List (Vec XR (nS flags))}
    {t : ℕ → Fin (nS flags) → ℝ} {b n : ℕ} (hc : ∀ j, j < n → chain[b + j]? = some (finVec (t (b + j)))) {iis : List ℤ}
    (hi : iis.length = n) :
    ∃ res st, calculateIntervals (chain.drop b) ⟨parindOf flags, theta, rest⟩ d model (.inr .none) obs iis =
        .ok (res, st) ∧
      st.ci = (List.ofFn fun j : Fin n => g (t (b + j))).map fun r => List.ofFn (finVec r) := by
  obtain ⟨st, h1, h2⟩ := propLoop_single (parindOf_injective flags) (chain := chain.drop b) (data := d)
    (model := model) (obs := obs) (q0 := theta) (y := fun j => List.ofFn (finVec (g (t (b + j)))))
    (iis := iis) (kk := 0) (st := { q := theta }) (fun _ _ => rfl) rfl fun i hi' =>
      ⟨finVec (t (b + i)), by rw [List.getElem?_drop, Nat.zero_add]; exact hc i (by omega), fun w hw => by
        rw [Nat.zero_add]
        exact hmod _ w (atRow_belongsTo hsp ht hw)⟩
  refine ⟨⟨parindOf flags, st.q, rest⟩, st, ?_, ?_⟩
  rotate_left
  · subst hi
    rw [h2, List.map_ofFn, List.nil_append]
    congr 1
    funext j
    simp [Function.comp]
  · unfold calculateIntervals checkS2chain
    simp only [ok_bind]
    rw [h1]
    rfl

theorem samplePoints_length (nsample nsimu : ℕ) (draws : List ℝ) (hd : draws.length = nsample) :
    (defineSamplePoints nsample nsimu draws).1.length = min nsample nsimu := by
  unfold defineSamplePoints
  split
  · simp; omega
  · simp; omega

end rows

section fixed
variable {σ : Type} [MeasurableSpace σ] {μ : Measure σ} {G : Rng σ XR} {N m : ℕ} {flags : Fin N → Bool}
  [IsProbabilityMeasure μ] {U : UserFuns XR N (nS flags) m} {L : Lapack XR}
  {specs : Fin N → ParamSpec XR} {sp : (Fin (nS flags) → ℝ) → Fin N → ParamSpec XR} {opts : SimOpts XR}
  {extra : ExtraOpts XR (nS flags)} {ms : ModelSettings XR} {data : Data}
  {q : (Fin (nS flags) → ℝ) → Fin m → ℝ} {r : (Fin (nS flags) → ℝ) → ℝ} {v : Fin m → ℝ}

/-- **C118** credible bands cover what their limits say: take a run from any start within the limits, drop a burn-in
`b`, and let `calculate_intervals` evaluate a model with one output at `nsample` rows.  If the number
of rows used is large enough and not less than the burn-in, then with probability at least `1 - ε` the run and
the evaluation succeed and, for all limits between 0 and 100, the bands are one per limit, the wider first, and
the band of limit `l` contains the model response at each output point with posterior probability
`l/100`, up to `η`. -/
theorem C118_credible {D R : Type}
    (H : ∀ k : ℤ, 1 < k → FixedProblem U G L specs sp { opts with nsimu := k } extra ms data q r v)
    (D1 : IdealRng G (nS flags) μ) (hZ0 : posteriorMeasure flags specs q r v Set.univ ≠ 0)
    (hZt : posteriorMeasure flags specs q r v Set.univ ≠ ⊤) {x : Fin (nS flags) → ℝ}
    (hx : InLimits flags specs (finVec x)) {η ε : ℝ} (hη : 0 < η) (hε : 0 < ε)
    {model : Vec XR N → D → Except PyErr (ModelOut XR)} {d : D} {c : ℕ} {g : (Fin (nS flags) → ℝ) → Fin c → ℝ}
    (hg : ∀ i, Measurable fun θ => g θ i) (hmod : GivesColumn specs model d g) (rest : R)
    (obs : ℕ → ℕ → S2Val XR → ModelOut XR → Except PyErr (List XR)) :
    ∃ K : ℕ, ∀ k b nsample : ℕ, K ≤ min nsample (k - b) → b ≤ min nsample (k - b) →
      ∀ draws : List ℝ, draws.length = nsample → ∀ fuel,
      1 - ε ≤ μ.real {s | ∃ out res st, ∃ rows : List (Fin c → ℝ),
        runSimulation U G L fuel (newObj (sp x) { opts with nsimu := k } extra ms data) s false = .ok out ∧
        calculateIntervals (out.results.chain.drop b) ⟨parindOf flags, out.results.theta, rest⟩ d model
          (.inr .none) obs (defineSamplePoints nsample (out.results.chain.drop b).length draws).1 = .ok (res, st) ∧
        st.ci = rows.map (fun y => List.ofFn (finVec y)) ∧
        ∀ limits default, (∀ l ∈ limits.getD default, 0 ≤ l ∧ l ≤ 100) →
          ∃ bands ls, intervalBands rows limits default = .ok bands ∧ ls.Perm (limits.getD default) ∧
            ls.Pairwise (· ≥ ·) ∧
            List.Forall₂ (fun l B => Covers (posteriorLaw flags specs q r v) g (l / 100) η B) ls bands} := by
  obtain ⟨hS0, T, hT, hsp, hkeep, hrun⟩ := fixed_harris H D1 hZ0 hZt
  have hprob := hT.prob
  obtain ⟨K, hK2, hK⟩ := hT.quantiles (measurableSet_inLimits specs) hsp
    (fun y hy => ae_of_all _ fun s => hkeep y hy s) hS0 hx (η := η / 2) (by positivity) hε hg
  refine ⟨K, fun k b nsample hKn hbn draws hd fuel => ?_⟩
  set n := min nsample (k - b) with hn
  obtain ⟨B, hB, hBε, hgood⟩ := hK n b hKn hbn
  calc 1 - ε ≤ 1 - μ.real B := by linarith
    _ = μ.real Bᶜ := (probReal_compl_eq_one_sub hB).symm
    _ ≤ _ := by
      refine measureReal_mono fun s hs => ?_
      obtain ⟨out, ho, hr⟩ := hrun k (by omega) x hx s fuel
      obtain ⟨hlen0, -, -, last, -, hlast⟩ := C02_chain_records_moves ((H k (by omega)).valid x hx).noRestart ho
      have hlen : (out.results.chain.length : ℤ) = k := hlen0
      have hdl : (out.results.chain.drop b).length = k - b := by rw [List.length_drop]; omega
      obtain ⟨res, st, h1, h2⟩ := credible_rows ((H 2 (by norm_num)).starts x) hlast hmod rest obs
        (t := fun j => (T^[j] (x, s)).1) (b := b) (n := n) (fun j hj => hr _ (by omega))
        (samplePoints_length nsample (k - b) draws hd)
      refine ⟨out, res, st, _, ho, by rw [hdl]; exact h1, h2, fun limits default hl => ?_⟩
      exact bands_cover hg hη (hgood s hs) hl

end fixed

section joint
variable {σ : Type} [MeasurableSpace σ] {μ : Measure σ} [IsProbabilityMeasure μ] {G : Rng σ XR} {N m : ℕ}
  {flags : Fin N → Bool} {U : UserFuns XR N (nS flags) m} {L : Lapack XR}
  {specs : Fin N → ParamSpec XR} {sp : (Fin (nS flags) → ℝ) → Fin N → ParamSpec XR} {opts : SimOpts XR}
  {extra : ExtraOpts XR (nS flags)} {ms : (Fin m → ℝ) → ModelSettings XR} {data : Data}
  {q : (Fin (nS flags) → ℝ) → Fin m → ℝ} {r : (Fin (nS flags) → ℝ) → ℝ} {Nobs N0 S20 : Fin m → ℝ}
  {dom : Set ((Fin (nS flags) → ℝ) × (Fin m → ℝ))}

/-- **C118** with sampled variances. -/
theorem C118_credible_joint {D R : Type}
    (H : ∀ k : ℤ, 1 < k → JointProblem U G L specs sp { opts with nsimu := k } extra ms data q r Nobs N0 S20 dom)
    (D0 : IdealRng G (nS flags) μ) (D1 : IdealRng G 1 μ)
    (hZ0 : jointPosterior flags specs q r Nobs N0 S20 Set.univ ≠ 0)
    (hZt : jointPosterior flags specs q r Nobs N0 S20 Set.univ ≠ ⊤)
    {p : (Fin (nS flags) → ℝ) × (Fin m → ℝ)} (hpd : p ∈ dom) {η ε : ℝ} (hη : 0 < η) (hε : 0 < ε)
    {model : Vec XR N → D → Except PyErr (ModelOut XR)} {d : D} {c : ℕ} {g : (Fin (nS flags) → ℝ) → Fin c → ℝ}
    (hg : ∀ i, Measurable fun θ => g θ i) (hmod : GivesColumn specs model d g) (rest : R)
    (obs : ℕ → ℕ → S2Val XR → ModelOut XR → Except PyErr (List XR)) :
    ∃ K0 : ℕ, ∀ k b nsample : ℕ, K0 ≤ min nsample (k - b) → b ≤ min nsample (k - b) →
      ∀ draws : List ℝ, draws.length = nsample →
      1 - ε ≤ μ.real {s | ∃ K, ∀ fuel, K ≤ fuel → ∃ out res st, ∃ rows : List (Fin c → ℝ),
        runSimulation U G L fuel (newObj (sp p.1) { opts with nsimu := k } extra (ms p.2) data) s false = .ok out ∧
        calculateIntervals (out.results.chain.drop b) ⟨parindOf flags, out.results.theta, rest⟩ d model
          (.inr .none) obs (defineSamplePoints nsample (out.results.chain.drop b).length draws).1 = .ok (res, st) ∧
        st.ci = rows.map (fun y => List.ofFn (finVec y)) ∧
        ∀ limits default, (∀ l ∈ limits.getD default, 0 ≤ l ∧ l ≤ 100) →
          ∃ bands ls, intervalBands rows limits default = .ok bands ∧ ls.Perm (limits.getD default) ∧
            ls.Pairwise (· ≥ ·) ∧
            List.Forall₂ (fun l B => Covers (jointLaw flags specs q r Nobs N0 S20) (fun z => g z.1) (l / 100) η B)
              ls bands} := by
  obtain ⟨hS0, T, hT, hsp, hkeep, hrun⟩ := joint_harris H D0 D1 hZ0 hZt ⟨p, hpd⟩
  have hprob := hT.prob
  have hp := (H 2 (by norm_num)).within p hpd
  have hg' : ∀ i, Measurable fun z : (Fin (nS flags) → ℝ) × (Fin m → ℝ) => g z.1 i := fun i =>
    (hg i).comp measurable_fst
  obtain ⟨K, hK2, hK⟩ := hT.quantiles (measurableSet_jointStarts flags specs m) hsp hkeep hS0 hp
    (η := η / 2) (by positivity) hε (g := fun z => g z.1) hg'
  refine ⟨K, fun k b nsample hKn hbn draws hd => ?_⟩
  set n := min nsample (k - b) with hn
  obtain ⟨B, hB, hBε, hgood⟩ := hK n b hKn hbn
  calc 1 - ε ≤ 1 - μ.real B := by linarith
    _ = μ.real Bᶜ := (probReal_compl_eq_one_sub hB).symm
    _ ≤ _ := by
      refine ENNReal.toReal_mono (measure_ne_top μ _) (measure_mono_ae ?_)
      filter_upwards [hrun k (by omega) p hpd] with s hs hsB
      obtain ⟨K1, hK1⟩ := hs
      refine ⟨K1, fun fuel hfuel => ?_⟩
      obtain ⟨out, ho, s2, hs2, hr⟩ := hK1 fuel hfuel
      obtain ⟨hlen0, -, -, last, -, hlast⟩ := C02_chain_records_moves ((H k (by omega)).valid p hpd).noRestart ho
      have hlen : (out.results.chain.length : ℤ) = k := hlen0
      have hdl : (out.results.chain.drop b).length = k - b := by rw [List.length_drop]; omega
      obtain ⟨res, st, h1, h2⟩ := credible_rows ((H 2 (by norm_num)).starts p.1) hlast hmod rest obs
        (t := fun j => (T^[j] (p, s)).1.1) (b := b) (n := n) (fun j hj => (hr _ (by omega)).1)
        (samplePoints_length nsample (k - b) draws hd)
      refine ⟨out, res, st, _, ho, by rw [hdl]; exact h1, h2, fun limits default hl => ?_⟩
      exact bands_cover hg' hη (hgood s hsB) hl

end joint

/-- a model with three output points: the parameter, its square and a constant -/
noncomputable def XRun.model (w : Vec XR 1) (_ : Unit) : Except PyErr (ModelOut XR) :=
  .ok (.vec [w 0, w 0 * w 0, .fin 5])

theorem XRun.model_responds : GivesColumn (flags := XRun.flags) XRun.freeSpecs XRun.model ()
    fun θ => ![θ ⟨0, by decide⟩, θ ⟨0, by decide⟩ * θ ⟨0, by decide⟩, 5] := by
  intro θ w hw
  have h0 : w 0 = .fin (θ ⟨0, by decide⟩) := by
    have h1 : ([w 0] : List XR) = List.ofFn (finVec θ) := hw.1
    have h2 := congrArg (fun l : List XR => l[0]?) h1
    rw [List.getElem?_ofFn, dif_pos (by decide)] at h2
    exact Option.some.inj h2
  exact ⟨_, rfl, rfl, by simp only [ModelOut.flat, h0]; rfl⟩

theorem XRun.model_measurable (i : Fin 3) : Measurable fun θ : Fin (nS XRun.flags) → ℝ =>
    (![θ ⟨0, by decide⟩, θ ⟨0, by decide⟩ * θ ⟨0, by decide⟩, 5] : Fin 3 → ℝ) i := by
  fin_cases i
  · exact measurable_pi_apply _
  · exact (measurable_pi_apply _).mul (measurable_pi_apply _)
  · exact measurable_const

/-- C118 for the standard normal posterior on the whole line: a run from start 1000000 without its first 1000 rows,
and the model evaluated at `nsample` rows. -/
example : ∃ K : ℕ, ∀ k nsample : ℕ, K ≤ nsample → 1000 ≤ nsample → nsample + 1000 ≤ k →
    ∀ draws : List ℝ, draws.length = nsample →
    1 - 1 / 100 ≤
      (coinLaw (nS XRun.flags)).real {s | ∃ out res st, ∃ rows : List (Fin 3 → ℝ), ∃ lo50 hi50 lo90 hi90,
        runSimulation XRun.user (coinRng (nS XRun.flags)) exactLapack 0
          (newObj (m := 1) (XRun.freeAt fun _ => 1000000) (defineSimulationOptions { nsimu := k, method := .dr })
            (XRun.extra 1 1) XRun.settings XRun.data) s false = .ok out ∧
        calculateIntervals (out.results.chain.drop 1000) ⟨parindOf XRun.flags, out.results.theta, ()⟩ ()
          XRun.model (.inr .none) (fun _ _ _ y => .ok y.flat)
          (defineSamplePoints nsample (out.results.chain.drop 1000).length draws).1 = .ok (res, st) ∧
        st.ci = rows.map (fun y => List.ofFn (finVec y)) ∧
        intervalBands rows (some [50, 90]) [95] = .ok [[lo90, hi90], [lo50, hi50]] ∧
        90 / 100 - 1 / 100 ≤ (posteriorLaw (m := 1) XRun.flags XRun.freeSpecs
            (fun θ _ => θ ⟨0, by decide⟩ * θ ⟨0, by decide⟩) (fun _ => 0) (fun _ => 1)).real
          {θ | lo90 1 ≤ θ ⟨0, by decide⟩ * θ ⟨0, by decide⟩ ∧ θ ⟨0, by decide⟩ * θ ⟨0, by decide⟩ ≤ hi90 1} ∧
        (posteriorLaw (m := 1) XRun.flags XRun.freeSpecs
            (fun θ _ => θ ⟨0, by decide⟩ * θ ⟨0, by decide⟩) (fun _ => 0) (fun _ => 1)).real
          {θ | lo50 0 < θ ⟨0, by decide⟩ ∧ θ ⟨0, by decide⟩ < hi50 0} ≤ 50 / 100 + 1 / 100} := by
  obtain ⟨K, h⟩ := C118_credible
    (opts := defineSimulationOptions { nsimu := 2, method := .dr }) XRun.freeProblem (coinIdeal _)
    XRun.free_mass.1 XRun.free_mass.2 (XRun.free_inLimits fun _ => 1000000) (η := 1 / 100) (ε := 1 / 100)
    (by norm_num) (by norm_num) XRun.model_measurable XRun.model_responds () fun _ _ _ y => .ok y.flat
  refine ⟨K, fun k nsample h1 h2 h3 draws hd =>
    (h k 1000 nsample (by omega) (by omega) draws hd 0).trans (measureReal_mono fun s hs => ?_)⟩
  obtain ⟨out, res, st, rows, ho, hc, hr, hb⟩ := hs
  obtain ⟨bands, ls, hB, hp, hs, hf⟩ := hb (some [50, 90]) [95] (by
    intro l hl
    simp only [Option.getD_some, List.mem_cons, List.not_mem_nil, or_false] at hl
    rcases hl with rfl | rfl <;> norm_num)
  have hls : ls = [90, 50] := by
    refine List.Perm.eq_of_pairwise (le := (· ≥ ·)) (fun a b _ _ h1 h2 => le_antisymm h2 h1) hs ?_
      (hp.trans (List.Perm.swap _ _ _))
    simp; norm_num
  subst hls
  cases hf with
  | cons f1 hf => cases hf with
    | cons f2 hf => cases hf with
      | nil =>
        obtain ⟨lo90, hi90, rfl, h90⟩ := f1
        obtain ⟨lo50, hi50, rfl, h50⟩ := f2
        exact ⟨out, res, st, rows, lo50, hi50, lo90, hi90, ho, hc, hr, hB, (h90 1).1, (h50 0).2⟩

/-- C118 with a sampled variance: the same model, limits 50 and 90. -/
example : ∃ K0 : ℕ, ∀ k nsample : ℕ, K0 ≤ nsample → 1000 ≤ nsample → nsample + 1000 ≤ k →
    ∀ draws : List ℝ, draws.length = nsample →
    1 - 1 / 100 ≤
      (coinLaw (nS XRun.flags)).real {s | ∃ K, ∀ fuel, K ≤ fuel → ∃ out res st, ∃ rows : List (Fin 3 → ℝ), ∃ bands,
        runSimulation XRun.user (coinRng (nS XRun.flags)) exactLapack fuel
          (newObj (m := 1) (XRun.freeAt fun _ => 1000000)
            (defineSimulationOptions { nsimu := k, method := .dr, updatesigma := true })
            (XRun.extra 1 1) (XRun.settingsAt fun _ => 2) XRun.data) s false = .ok out ∧
        calculateIntervals (out.results.chain.drop 1000) ⟨parindOf XRun.flags, out.results.theta, ()⟩ ()
          XRun.model (.inr .none) (fun _ _ _ y => .ok y.flat)
          (defineSamplePoints nsample (out.results.chain.drop 1000).length draws).1 = .ok (res, st) ∧
        st.ci = rows.map (fun y => List.ofFn (finVec y)) ∧
        intervalBands rows none [95] = .ok [bands] ∧
        Covers (jointLaw (m := 1) XRun.flags XRun.freeSpecs (fun θ _ => θ ⟨0, by decide⟩ * θ ⟨0, by decide⟩)
          (fun _ => 0) (fun _ => 5) (fun _ => 1) (fun _ => 1))
          (fun z => ![z.1 ⟨0, by decide⟩, z.1 ⟨0, by decide⟩ * z.1 ⟨0, by decide⟩, 5]) (95 / 100) (1 / 100) bands} := by
  have D1 : IdealRng (coinRng (nS XRun.flags)) 1 (coinLaw (nS XRun.flags)) := by
    rw [XRun.nS_flags]; exact coinIdeal 1
  obtain ⟨K0, h⟩ := C118_credible_joint
    (opts := defineSimulationOptions { nsimu := 2, method := .dr, updatesigma := true }) XRun.freeJoint
    (coinIdeal _) D1 XRun.freeJoint_mass.1 XRun.freeJoint_mass.2 (p := (fun _ => 1000000, fun _ => 2))
    ⟨XRun.free_inLimits _, fun _ => by norm_num⟩ (η := 1 / 100) (ε := 1 / 100) (by norm_num)
    (by norm_num) XRun.model_measurable XRun.model_responds () fun _ _ _ y => .ok y.flat
  refine ⟨K0, fun k nsample h1 h2 h3 draws hd =>
    (h k 1000 nsample (by omega) (by omega) draws hd).trans (measureReal_mono fun s hs => ?_)⟩
  obtain ⟨K, hs⟩ := hs
  refine ⟨K, fun fuel hfuel => ?_⟩
  obtain ⟨out, res, st, rows, ho, hc, hr, hb⟩ := hs fuel hfuel
  obtain ⟨bands, ls, hB, hp, -, hf⟩ := hb none [95] (by
    intro l hl
    simp only [Option.getD_none, List.mem_cons, List.not_mem_nil, or_false] at hl
    subst hl; norm_num)
  obtain rfl := List.perm_singleton.1 hp
  cases hf with
  | cons f1 hf => cases hf with
    | nil => exact ⟨out, res, st, rows, _, ho, hc, hr, hB, f1⟩

end Verif
