import Verif.Lemmas.GammaRun
import Verif.Lemmas.CoinRng

/-! # C83: the law of the gamma numbers and of the sampled error variances -/

set_option linter.unusedSectionVars false

namespace Verif
open MeasureTheory ProbabilityTheory Real

variable {σ : Type} [MeasurableSpace σ] {G : Rng σ XR} {μ : Measure σ} [IsProbabilityMeasure μ] {m : ℕ}

/-- any positive shape: the draw, without the factor `b`, and its positivity -/
theorem gammar_draw (D : IdealRng G 1 μ) {a : ℝ} (ha : 0 < a) :
    ∃ draw : σ → ℝ × σ, MeasurePreserving draw μ ((gammaMeasure a 1).prod μ) ∧
      ∀ᵐ s ∂μ, 0 < (draw s).1 ∧ ∃ K, ∀ fuel, K ≤ fuel → ∀ b : ℝ,
        gammar G fuel (.fin a) (.fin b) s = .ok (.fin (b * (draw s).1), (draw s).2) := by
  have hpos : ∀ {draw : σ → ℝ × σ}, MeasurePreserving draw μ ((gammaMeasure a 1).prod μ) →
      ∀ᵐ s ∂μ, 0 < (draw s).1 := by
    intro draw h
    have := isProbabilityMeasure_gammaMeasure ha one_pos
    have h1 : MeasurePreserving (fun s => (draw s).1) μ (gammaMeasure a 1) := measurePreserving_fst.comp h
    refine h1.quasiMeasurePreserving.ae (p := fun y => 0 < y) ?_
    rw [ae_iff]
    have hset : {y : ℝ | ¬ 0 < y} = Set.Iic 0 := by ext; simp
    rw [hset, gammaMeasure, withDensity_apply _ measurableSet_Iic, setLIntegral_congr Iio_ae_eq_Iic.symm]
    exact lintegral_gammaPDF_of_nonpos le_rfl
  have hle : ¬ PyFloat.le (XR.fin a) (lit 0) = true := by simpa using ha
  rcases le_or_gt 1 a with h1 | h1
  · obtain ⟨draw, hd, hae⟩ := gammarMt1_ge D h1
    refine ⟨draw, hd, ?_⟩
    filter_upwards [hpos hd, hae] with s hs ⟨K, hK⟩
    refine ⟨hs, K, fun fuel hf b => ?_⟩
    rw [gammar, if_neg hle, hK fuel hf b]
  · obtain ⟨draw, hd, hae⟩ := gammarMt1_ge D (a := 1 + a) (by linarith)
    have := isProbabilityMeasure_gammaMeasure (by linarith : 0 < 1 + a) one_pos
    have hd2 : MeasurePreserving (fun s => (((draw s).1, D.u (draw s).2), D.afterU (draw s).2)) μ
        (((gammaMeasure (1 + a) 1).prod uniformLaw).prod μ) :=
      (measurePreserving_prodAssoc (gammaMeasure (1 + a) 1) uniformLaw μ).symm.comp
        (((MeasurePreserving.id (gammaMeasure (1 + a) 1)).prod D.lawU).comp hd)
    have hboost := gamma_boost ha one_pos
    rw [inv_one] at hboost
    have := isProbabilityMeasure_gammaMeasure ha one_pos
    have hd3 : MeasurePreserving (fun s => ((draw s).1 * D.u (draw s).2 ^ (1 / a), D.afterU (draw s).2)) μ
        ((gammaMeasure a 1).prod μ) :=
      (hboost.prod (MeasurePreserving.id μ)).comp hd2
    refine ⟨_, hd3, ?_⟩
    filter_upwards [hpos hd3, hae] with s hs ⟨K, hK⟩
    refine ⟨hs, K + 1, fun fuel hf b => ?_⟩
    obtain ⟨k, rfl⟩ : ∃ k', fuel = k' + 1 := ⟨fuel - 1, by omega⟩
    have e1 : (lit 1 + XR.fin a : XR) = .fin (1 + a) := by simp
    have e2 : (lit 1 / XR.fin a : XR) = .fin (1 / a) := by
      rw [XR.lit_eq, XR.fin_div ha.ne']; simp
    have e3 : PyFloat.pow (XR.fin (D.u (draw s).2)) (.fin (1 / a)) = .fin (D.u (draw s).2 ^ (1 / a)) := by
      show XR.pow _ _ = _
      have ha' : (0:ℝ) < 1 / a := by positivity
      rcases eq_or_lt_of_le (D.range (draw s).2).1 with h0 | h0
      · rw [XR.pow, ← h0, if_neg (lt_irrefl _), if_pos rfl, if_pos ha', zero_rpow ha'.ne']
      · rw [XR.pow, if_pos h0]
    rw [gammar, if_neg hle, gammarMt1, if_pos (by simpa using h1), e1, hK k (by omega) b, ok_bind]
    simp only [D.rand]
    rw [e2, e3, XR.fin_mul, mul_assoc]

/-- **C83.** With an ideal generator, `gammar` for a positive shape `a` and a positive scale `b` ends
with probability one, the number it returns has the gamma law of shape `a` and scale `b`, and what
the generator gives afterwards is independent of that number and as ideal as before. -/
theorem C83_gamma_law (D : IdealRng G 1 μ) {a b : ℝ} (ha : 0 < a) (hb : 0 < b) :
    ∃ draw : σ → ℝ × σ, MeasurePreserving draw μ ((gammaMeasure a b⁻¹).prod μ) ∧
      ∀ᵐ s ∂μ, ∃ K, ∀ fuel, K ≤ fuel →
        gammar G fuel (.fin a) (.fin b) s = .ok (.fin (draw s).1, (draw s).2) := by
  obtain ⟨draw, hd, hae⟩ := gammar_draw D ha
  have := isProbabilityMeasure_gammaMeasure ha one_pos
  have := isProbabilityMeasure_gammaMeasure ha (inv_pos.2 hb)
  refine ⟨_, ((gamma_scale hb).prod (MeasurePreserving.id μ)).comp hd, ?_⟩
  filter_upwards [hae] with s ⟨_, K, hK⟩
  exact ⟨K, fun fuel hf => hK fuel hf b⟩

/-- the new variances after the sampling of the data sets in `l` -/
theorem sigmaFold_draw (D : IdealRng G 1 μ) {N0 N S20 : Fin m → ℝ} (hshape : ∀ j, 0 < N0 j + N j)
    (NX : List XR) (hN : ∀ j : Fin m, NX[(j : ℕ)]? = some (.fin (N j))) :
    ∀ l : List (Fin m), l.Nodup → ∃ draw : σ → (Fin m → ℝ) × σ,
      MeasurePreserving draw μ ((Measure.pi fun j =>
        if j ∈ l then gammaMeasure (1 / 2 * (N0 j + N j)) 1 else Measure.dirac 1).prod μ) ∧
      ∀ᵐ s ∂μ, (∀ j ∈ l, 0 < (draw s).1 j) ∧ ∃ K, ∀ fuel, K ≤ fuel → ∀ q : Fin m → ℝ,
        (∀ j, 0 < N0 j * S20 j + q j) → ∀ sigma2 : Vec XR m,
        l.foldlM (sigmaStep G fuel fun j => .fin (q j))
          (({ N0 := fun j => .fin (N0 j), N := NX, S20 := .own fun j => .fin (S20 j), sigma2 := sigma2 } :
            ErrModel XR m), s) =
          .ok ({ N0 := fun j => .fin (N0 j), N := NX, S20 := .own fun j => .fin (S20 j),
                 sigma2 := fun j => if j ∈ l then .fin ((N0 j * S20 j + q j) / (2 * (draw s).1 j)) else sigma2 j },
               (draw s).2)
  | [], _ => by
    refine ⟨fun s => (fun _ => 1, s), ?_, ae_of_all _ fun s => ⟨by simp, 0, fun fuel _ q _ sigma2 => ?_⟩⟩
    · simp only [List.not_mem_nil, if_false]
      have h1 : (Measure.pi fun _ : Fin m => Measure.dirac (1 : ℝ)) = Measure.dirac fun _ => 1 :=
        pi_dirac_one m
      rw [h1]
      refine ⟨by fun_prop, ?_⟩
      rw [Measure.dirac_prod]
    · simp
      rfl
  | j :: l, hl => by
    have hsh : 0 < 1 / 2 * (N0 j + N j) := by have := hshape j; positivity
    obtain ⟨d1, h1, ae1⟩ := gammar_draw D hsh
    obtain ⟨d2, h2, ae2⟩ := sigmaFold_draw (S20 := S20) D hshape NX hN l (List.nodup_cons.1 hl).2
    have hprob : ∀ i, IsProbabilityMeasure (if i ∈ l then gammaMeasure (1 / 2 * (N0 i + N i)) 1 else Measure.dirac 1) := by
      intro i
      split
      · exact isProbabilityMeasure_gammaMeasure (by have := hshape i; positivity) one_pos
      · infer_instance
    have := isProbabilityMeasure_gammaMeasure hsh one_pos
    have hmp : MeasurePreserving (fun s => (((d1 s).1, (d2 (d1 s).2).1), (d2 (d1 s).2).2)) μ
        (((gammaMeasure (1 / 2 * (N0 j + N j)) 1).prod (Measure.pi fun i =>
          if i ∈ l then gammaMeasure (1 / 2 * (N0 i + N i)) 1 else Measure.dirac 1)).prod μ) :=
      (measurePreserving_prodAssoc _ _ μ).symm.comp (((MeasurePreserving.id _).prod h2).comp h1)
    have hmp2 := ((measurePreserving_replace (fun i => if i ∈ l then gammaMeasure (1 / 2 * (N0 i + N i)) 1 else
      Measure.dirac 1) j (gammaMeasure (1 / 2 * (N0 j + N j)) 1)).prod (MeasurePreserving.id μ)).comp hmp
    refine ⟨fun s => (Function.update (d2 (d1 s).2).1 j (d1 s).1, (d2 (d1 s).2).2), ?_, ?_⟩
    · have hpi : (fun i => if i ∈ j :: l then gammaMeasure (1 / 2 * (N0 i + N i)) 1 else Measure.dirac 1) =
          fun i => if i = j then gammaMeasure (1 / 2 * (N0 j + N j)) 1 else
            if i ∈ l then gammaMeasure (1 / 2 * (N0 i + N i)) 1 else Measure.dirac 1 := by
        funext i
        by_cases hi : i = j
        · subst hi; simp
        · simp [hi]
      rw [hpi]
      exact hmp2
    · have hq : MeasurePreserving (fun s => (d1 s).2) μ μ := measurePreserving_snd.comp h1
      filter_upwards [ae1, hq.quasiMeasurePreserving.ae ae2] with s ⟨p1, K1, hK1⟩ ⟨p2, K2, hK2⟩
      refine ⟨fun i hi => ?_, max K1 K2, fun fuel hf q hpos sigma2 => ?_⟩
      · by_cases hij : i = j
        · subst hij; simpa using p1
        · have : i ∈ l := by simpa [hij] using hi
          simpa [hij] using p2 i this
      · have hne := (hpos j).ne'
        have hstep : sigmaStep G fuel (fun j => .fin (q j))
            (({ N0 := fun j => .fin (N0 j), N := NX, S20 := .own fun j => .fin (S20 j), sigma2 := sigma2 } :
              ErrModel XR m), s) j =
            .ok ({ N0 := fun j => .fin (N0 j), N := NX, S20 := .own fun j => .fin (S20 j),
                   sigma2 := Function.update sigma2 j (.fin ((N0 j * S20 j + q j) / (2 * (d1 s).1))) }, (d1 s).2) := by
          unfold sigmaStep
          have e1 : (lit (1/2) * (XR.fin (N0 j) + .fin (N j)) : XR) = .fin (1 / 2 * (N0 j + N j)) := by
            rw [XR.lit_eq, XR.fin_add, XR.fin_mul]; push_cast; rfl
          have e2 : (lit 2 * (lit 1 / (XR.fin (N0 j) * .fin (S20 j) + .fin (q j))) : XR) =
              .fin (2 * (1 / (N0 j * S20 j + q j))) := by
            rw [XR.fin_mul, XR.fin_add, XR.lit_eq, XR.lit_eq, XR.fin_div hne, XR.fin_mul]; push_cast; rfl
          have e3 : (lit 1 / XR.fin (2 * (1 / (N0 j * S20 j + q j)) * (d1 s).1) : XR) =
              .fin ((N0 j * S20 j + q j) / (2 * (d1 s).1)) := by
            have := hpos j
            rw [XR.lit_eq, XR.fin_div (by positivity)]
            congr 1
            push_cast
            field_simp
          have e4 : pyGet NX (j : ℕ) = .ok (.fin (N j)) := pyGet_ok.2 (hN j)
          simp only [e4, ok_bind, ErrModel.s20, e1, e2, hK1 fuel (by omega), e3]
        rw [List.foldlM_cons, hstep, ok_bind, hK2 fuel (by omega) q hpos]
        congr 3
        funext i
        by_cases hij : i = j
        · subst hij
          have : i ∉ l := (List.nodup_cons.1 hl).1
          simp [this]
        · simp [hij]

/-- the draws of one call of `update_error_variance`; they do not depend on the sums of squares -/
theorem updateErrorVariance_draw (D : IdealRng G 1 μ) {N0 N S20 : Fin m → ℝ} (hshape : ∀ j, 0 < N0 j + N j)
    (NX : List XR) (hN : ∀ j : Fin m, NX[(j : ℕ)]? = some (.fin (N j))) :
    ∃ draw : σ → (Fin m → ℝ) × σ,
      MeasurePreserving draw μ ((Measure.pi fun j => gammaMeasure (1 / 2 * (N0 j + N j)) 1).prod μ) ∧
      ∀ᵐ s ∂μ, (∀ j, 0 < (draw s).1 j) ∧ ∃ K, ∀ fuel, K ≤ fuel → ∀ q : Fin m → ℝ,
        (∀ j, 0 < N0 j * S20 j + q j) → ∀ sigma2 : Vec XR m,
        updateErrorVariance G fuel (fun j => .fin (q j))
          ({ N0 := fun j => .fin (N0 j), N := NX, S20 := .own fun j => .fin (S20 j), sigma2 := sigma2 } :
            ErrModel XR m) s =
          .ok ({ N0 := fun j => .fin (N0 j), N := NX, S20 := .own fun j => .fin (S20 j),
                 sigma2 := fun j => .fin ((N0 j * S20 j + q j) / (2 * (draw s).1 j)) }, (draw s).2) := by
  obtain ⟨draw, h1, h2⟩ := sigmaFold_draw (S20 := S20) D hshape NX hN (List.finRange m) (List.nodup_finRange m)
  refine ⟨draw, by simpa using h1, ?_⟩
  filter_upwards [h2] with s ⟨hp, K, hK⟩
  refine ⟨fun j => hp j (List.mem_finRange j), K, fun fuel hf q hq sigma2 => ?_⟩
  have := hK fuel hf q hq sigma2
  simpa [updateErrorVariance] using this

/-- **C83, error variances.** With an ideal generator one call of `update_error_variance`, for data sets with
`N` observations and sums of squares `q`, and for `N0` and `S20` that are not stored in the array of
the variances, ends with probability one.  The reciprocals of the new variances are
independent of each other and of what the generator gives later, and the reciprocal for data set `j` has
the gamma law of shape `(N0 + N) / 2` and rate `(N0 S20 + q) / 2`, the law of the precision given the
parameters. -/
theorem C83_error_variances (D : IdealRng G 1 μ) {M : ErrModel XR m} {N0 N S20 q : Fin m → ℝ}
    (hN0 : ∀ j, M.N0 j = .fin (N0 j)) (hN : ∀ j : Fin m, M.N[(j : ℕ)]? = some (.fin (N j)))
    (hS : M.S20 = .own fun j => .fin (S20 j)) (hshape : ∀ j, 0 < N0 j + N j) (hrate : ∀ j, 0 < N0 j * S20 j + q j) :
    ∃ draw : σ → (Fin m → ℝ) × σ,
      MeasurePreserving draw μ
        ((Measure.pi fun j => gammaMeasure ((N0 j + N j) / 2) ((N0 j * S20 j + q j) / 2)).prod μ) ∧
      ∀ᵐ s ∂μ, (∀ j, 0 < (draw s).1 j) ∧ ∃ K, ∀ fuel, K ≤ fuel →
        updateErrorVariance G fuel (fun j => .fin (q j)) M s =
          .ok ({ M with sigma2 := fun j => .fin (1 / (draw s).1 j) }, (draw s).2) := by
  obtain ⟨draw, h1, h2⟩ := updateErrorVariance_draw (S20 := S20) D hshape M.N hN
  have hprob : ∀ j, IsProbabilityMeasure (gammaMeasure (1 / 2 * (N0 j + N j)) 1) := fun j =>
    isProbabilityMeasure_gammaMeasure (by have := hshape j; positivity) one_pos
  have hprob' : ∀ j, IsProbabilityMeasure (gammaMeasure ((N0 j + N j) / 2) ((N0 j * S20 j + q j) / 2)) := fun j =>
    isProbabilityMeasure_gammaMeasure (by have := hshape j; positivity) (by have := hrate j; positivity)
  have hsc : ∀ j, MeasurePreserving (fun y : ℝ => 2 / (N0 j * S20 j + q j) * y)
      (gammaMeasure (1 / 2 * (N0 j + N j)) 1) (gammaMeasure ((N0 j + N j) / 2) ((N0 j * S20 j + q j) / 2)) := by
    intro j
    have h := gamma_scale (a := (N0 j + N j) / 2) (b := 2 / (N0 j * S20 j + q j)) (by have := hrate j; positivity)
    rw [inv_div] at h
    rw [one_div_mul_eq_div]
    exact h
  have hpi := measurePreserving_pi _ _ hsc
  refine ⟨_, (hpi.prod (MeasurePreserving.id μ)).comp h1, ?_⟩
  filter_upwards [h2] with s ⟨hp, K, hK⟩
  refine ⟨fun j => ?_, K, fun fuel hf => ?_⟩
  · have h3 := hp j
    have h4 := hrate j
    show 0 < 2 / (N0 j * S20 j + q j) * (draw s).1 j
    positivity
  · obtain ⟨N0', N', S20', sigma2⟩ := M
    obtain rfl : N0' = fun j => .fin (N0 j) := funext hN0
    obtain rfl : S20' = _ := hS
    rw [hK fuel hf q hrate sigma2]
    have hs2 : (fun j => XR.fin ((N0 j * S20 j + q j) / (2 * (draw s).1 j))) =
        fun j => XR.fin (1 / (2 / (N0 j * S20 j + q j) * (draw s).1 j)) := by
      funext j
      have h3 := hp j
      have h4 := hrate j
      congr 1
      field_simp
    rw [hs2]
    rfl

/-- an ideal generator, shape 1/2 (below 1, the branch with the uniform root) and shape 3 -/
example : (∃ draw : CoinState 1 → ℝ × CoinState 1,
      MeasurePreserving draw (coinLaw 1) ((gammaMeasure (1/2) (2 : ℝ)⁻¹).prod (coinLaw 1)) ∧
      ∀ᵐ s ∂coinLaw 1, ∃ K, ∀ fuel, K ≤ fuel →
        gammar (coinRng 1) fuel (.fin (1/2)) (.fin 2) s = .ok (.fin (draw s).1, (draw s).2)) ∧
    (∃ draw : CoinState 1 → ℝ × CoinState 1,
      MeasurePreserving draw (coinLaw 1) ((gammaMeasure 3 (2 : ℝ)⁻¹).prod (coinLaw 1)) ∧
      ∀ᵐ s ∂coinLaw 1, ∃ K, ∀ fuel, K ≤ fuel →
        gammar (coinRng 1) fuel (.fin 3) (.fin 2) s = .ok (.fin (draw s).1, (draw s).2)) :=
  ⟨C83_gamma_law (coinIdeal 1) (by norm_num) (by norm_num), C83_gamma_law (coinIdeal 1) (by norm_num) (by norm_num)⟩

/-- two data sets: 10 observations with sum of squares 4 and 20 with 3, `N0 = (1, 2)`, `S20 = (1, 1/2)` -/
example (sigma2 : Vec XR 2) : ∃ draw : CoinState 1 → (Fin 2 → ℝ) × CoinState 1,
      MeasurePreserving draw (coinLaw 1) ((Measure.pi fun j => gammaMeasure ((![1, 2] j + ![10, 20] j) / 2)
        ((![1, 2] j * ![1, 1/2] j + ![4, 3] j) / 2)).prod (coinLaw 1)) ∧
      ∀ᵐ s ∂coinLaw 1, (∀ j, 0 < (draw s).1 j) ∧ ∃ K, ∀ fuel, K ≤ fuel →
        updateErrorVariance (coinRng 1) fuel (fun j => .fin (![4, 3] j))
          { N0 := fun j => .fin (![1, 2] j), N := [.fin 10, .fin 20], S20 := .own fun j => .fin (![1, 1/2] j),
            sigma2 := sigma2 } s =
          .ok ({ N0 := fun j => .fin (![1, 2] j), N := [.fin 10, .fin 20], S20 := .own fun j => .fin (![1, 1/2] j),
                 sigma2 := fun j => .fin (1 / (draw s).1 j) }, (draw s).2) :=
  C83_error_variances (coinIdeal 1) (fun _ => rfl) (fun j => by fin_cases j <;> rfl) rfl
    (fun j => by fin_cases j <;> norm_num) (fun j => by fin_cases j <;> norm_num)

end Verif
