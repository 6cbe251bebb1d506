import Verif.Lemmas.Rejection
import Verif.Lemmas.GammaLaw
import Verif.Lemmas.Basic
import Verif.Props.QuickTest

/-! # The gamma generator with an ideal source of random numbers -/

set_option linter.unusedSectionVars false

namespace Verif
open MeasureTheory ProbabilityTheory Real

theorem hits_mem {σ X : Type} {T : σ → X × σ} {S : Set X} : ∀ {n : ℕ} {s : σ}, hits T S n s → (nth T n s).1 ∈ S
  | 0, _, h => h
  | n + 1, s, h => hits_mem (n := n) (s := (T s).2) h.2

/-- The two tests together accept exactly the pairs below the acceptance probability. -/
theorem mt_accept {a d c x u : ℝ} (ha : 1 ≤ a) (hd : d = a - 1 / 3) (hc : c = 1 / sqrt (9 * d))
    (hx : x ∈ mtFirst c) (hu : 0 ≤ u ∧ u < 1) :
    (mtQuick (XR.fin x) (.fin u) = true ∨
      mtExact (XR.fin d) (.fin x) (.fin ((1 + c * x) * (1 + c * x) * (1 + c * x))) (.fin u) = true) ↔
    (x, u) ∈ mtSecond d c := by
  have hx0 : 0 < 1 + c * x := hx
  have h9 : (0:ℝ) < 9 * d := by rw [hd]; linarith
  have hlog : log ((1 + c * x) * (1 + c * x) * (1 + c * x)) = 3 * log (1 + c * x) := by
    rw [log_mul (by positivity) hx0.ne', log_mul hx0.ne' hx0.ne']; ring
  have hex : mtExact (XR.fin d) (.fin x) (.fin ((1 + c * x) * (1 + c * x) * (1 + c * x))) (.fin u) = true ↔
      (x, u) ∈ mtSecond d c := by
    unfold mtExact
    rw [XR.log_fin (mul_pos (mul_pos hx0 hx0) hx0)]
    rcases eq_or_lt_of_le hu.1 with h0 | h0
    · have h1 : PyFloat.log (XR.fin u) = XR.ninf := by
        show XR.log (.fin u) = _
        simp [XR.log, ← h0]
      rw [h1]
      simp only [XR.lit_eq, XR.fin_mul, XR.fin_add, XR.fin_sub]
      refine ⟨fun _ => ?_, fun _ => rfl⟩
      show u < exp _
      rw [← h0]
      exact exp_pos _
    · rw [XR.log_fin h0]
      simp only [XR.lit_eq, XR.fin_mul, XR.fin_add, XR.fin_sub, XR.fin_lt, decide_eq_true_eq]
      rw [hlog, log_lt_iff_lt_exp h0]
      show _ ↔ u < exp (mtH d c x)
      have : mtH d c x = ((1 / 2 : ℚ) : ℝ) * (x * x) +
          d * (((1 : ℚ) : ℝ) - (1 + c * x) * (1 + c * x) * (1 + c * x) + 3 * log (1 + c * x)) := by
        unfold mtH; push_cast; ring
      rw [this]
  rw [← hex]
  refine ⟨?_, .inr⟩
  rintro (h | h)
  · rcases eq_or_lt_of_le hu.1 with h0 | h0
    · rw [hex]
      show u < exp _
      rw [← h0]
      exact exp_pos _
    · have hdX : XR.fin d = .fin a - lit (1/3) := by rw [hd]; simp
      have hcX : XR.fin c = lit 1 / PyFloat.sqrt (lit 9 * XR.fin d) := by
        rw [XR.lit_eq, XR.lit_eq, XR.fin_mul, show (((9:ℚ):ℝ)) = 9 by norm_num, XR.sqrt_fin h9.le,
          XR.fin_div (Real.sqrt_pos.2 h9).ne', hc]
        simp
      have hv : (lit 1 + XR.fin c * .fin x : XR) = .fin (1 + c * x) := by simp
      have := C24_quick_implies_exact ha h0 hu.2 hdX hcX (by rw [hv]; simpa using hx0) h
      rwa [hv, XR.fin_mul, XR.fin_mul] at this
  · exact h

variable {σ : Type} [MeasurableSpace σ] {G : Rng σ XR} {μ : Measure σ} [IsProbabilityMeasure μ]

/-- one normal number -/
def IdealRng.one (D : IdealRng G 1 μ) (s : σ) : ℝ × σ := (D.z s 0, D.afterZ s)

theorem IdealRng.lawOne (D : IdealRng G 1 μ) : MeasurePreserving D.one μ ((gaussianReal 0 1).prod μ) := by
  have h1 : MeasurePreserving (fun z : Fin 1 → ℝ => z 0) (normalLaw 1) (gaussianReal 0 1) :=
    measurePreserving_eval (fun _ : Fin 1 => gaussianReal 0 1) 0
  exact (h1.prod (MeasurePreserving.id μ)).comp D.lawZ

theorem mtInner_hits (D : IdealRng G 1 μ) (c : ℝ) : ∀ (n k : ℕ) (s : σ), hits D.one (mtFirst c) n s → n < k →
    mtInner G (.fin c) k s =
      .ok (.fin (nth D.one n s).1, .fin (1 + c * (nth D.one n s).1), (nth D.one n s).2)
  | _, 0, _, _, h => absurd h (by omega)
  | 0, k + 1, s, h, _ => by
      have h' : 0 < 1 + c * D.z s 0 := h
      have e : (lit 1 + XR.fin c * XR.fin (D.z s 0) : XR) = .fin (1 + c * D.z s 0) := by simp
      rw [mtInner]
      simp only [D.randn, e]
      rw [if_pos (by simpa using h')]
      rfl
  | n + 1, k + 1, s, h, hk => by
      have h' : ¬ 0 < 1 + c * D.z s 0 := h.1
      have e : (lit 1 + XR.fin c * XR.fin (D.z s 0) : XR) = .fin (1 + c * D.z s 0) := by simp
      rw [mtInner]
      simp only [D.randn, e]
      rw [if_neg (by simpa using h')]
      exact mtInner_hits D c n k (D.afterZ s) h.2 (by omega)

/-- one accepted normal number and one uniform number -/
def IdealRng.two (D : IdealRng G 1 μ) (R : σ → ℝ × σ) (s : σ) : (ℝ × ℝ) × σ :=
  (((R s).1, D.u (R s).2), D.afterU (R s).2)

theorem IdealRng.lawTwo (D : IdealRng G 1 μ) {R : σ → ℝ × σ} {ν : Measure ℝ} [IsProbabilityMeasure ν]
    (hR : MeasurePreserving R μ (ν.prod μ)) :
    MeasurePreserving (D.two R) μ ((ν.prod uniformLaw).prod μ) := by
  have h1 := ((MeasurePreserving.id ν).prod D.lawU).comp hR
  exact (measurePreserving_prodAssoc ν uniformLaw μ).symm.comp h1

/-- the inner loop ends at the first `n + 1` states of the outer loop -/
def innerEnds (D : IdealRng G 1 μ) (c : ℝ) (R : σ → ℝ × σ) : ℕ → σ → Prop
  | 0, s => ∃ n, hits D.one (mtFirst c) n s ∧ R s = nth D.one n s
  | k + 1, s => (∃ n, hits D.one (mtFirst c) n s ∧ R s = nth D.one n s) ∧ innerEnds D c R k (D.two R s).2

theorem ae_innerEnds (D : IdealRng G 1 μ) {c : ℝ} {R : σ → ℝ × σ} {ν : Measure ℝ} [IsProbabilityMeasure ν]
    (hR : MeasurePreserving R μ (ν.prod μ))
    (h : ∀ᵐ s ∂μ, ∃ n, hits D.one (mtFirst c) n s ∧ R s = nth D.one n s) :
    ∀ n, ∀ᵐ s ∂μ, innerEnds D c R n s
  | 0 => h
  | n + 1 => by
    have h1 : MeasurePreserving (fun s => (D.two R s).2) μ μ := measurePreserving_snd.comp (D.lawTwo hR)
    have h2 := h1.quasiMeasurePreserving.ae (ae_innerEnds D hR h n)
    filter_upwards [h, h2] with s hs hs2
    exact ⟨hs, hs2⟩

theorem mtOuter_hits (D : IdealRng G 1 μ) {a d c : ℝ} {R : σ → ℝ × σ} (ha : 1 ≤ a) (hd : d = a - 1 / 3)
    (hc : c = 1 / sqrt (9 * d)) : ∀ (n : ℕ) (s : σ), hits (D.two R) (mtSecond d c) n s → innerEnds D c R n s →
    ∃ K, ∀ k, K ≤ k → mtOuter G (.fin c) (.fin d) k s =
      .ok (.fin ((1 + c * (nth (D.two R) n s).1.1) ^ 3), (nth (D.two R) n s).2) := by
  classical
  intro n
  have key : ∀ (j k : ℕ) (s : σ), hits D.one (mtFirst c) j s → R s = nth D.one j s → j ≤ k →
      mtOuter G (.fin c) (.fin d) (k + 1) s =
        (if (D.two R s).1 ∈ mtSecond d c
          then .ok (.fin ((1 + c * (D.two R s).1.1) ^ 3), (D.two R s).2)
          else mtOuter G (.fin c) (.fin d) k (D.two R s).2 : Except PyErr (XR × σ)) := by
    intro j k s hj hR hk
    have hx : (R s).1 ∈ mtFirst c := by rw [hR]; exact hits_mem hj
    have hacc := mt_accept ha hd hc hx (D.range (R s).2)
    rw [mtOuter, mtInner_hits D c j (k + 1) s hj (by omega), ok_bind, ← hR]
    simp only [D.rand, XR.fin_mul]
    have e3 : (1 + c * (R s).1) * (1 + c * (R s).1) * (1 + c * (R s).1) = (1 + c * (R s).1) ^ 3 := by ring
    by_cases hq : mtQuick (XR.fin (R s).1) (.fin (D.u (R s).2)) = true
    · rw [if_pos hq, if_pos (by exact hacc.1 (.inl hq)), e3]
      rfl
    · rw [if_neg hq]
      by_cases he : mtExact (XR.fin d) (.fin (R s).1)
          (.fin ((1 + c * (R s).1) * (1 + c * (R s).1) * (1 + c * (R s).1))) (.fin (D.u (R s).2)) = true
      · rw [if_pos he, if_pos (by exact hacc.1 (.inr he)), e3]
        rfl
      · rw [if_neg he, if_neg]
        · rfl
        · intro h
          rcases hacc.2 h with h | h
          · exact hq h
          · exact he h
  induction n with
  | zero =>
    intro s hs hg
    obtain ⟨j, hj, hR⟩ := hg
    refine ⟨j + 1, fun k hk => ?_⟩
    obtain ⟨k, rfl⟩ : ∃ k', k = k' + 1 := ⟨k - 1, by omega⟩
    rw [key j k s hj hR (by omega), if_pos (by exact hs)]
    rfl
  | succ n ih =>
    intro s hs hg
    obtain ⟨⟨j, hj, hR⟩, hg'⟩ := hg
    obtain ⟨K, hK⟩ := ih _ hs.2 hg'
    refine ⟨max (j + 1) (K + 1), fun k hk => ?_⟩
    obtain ⟨k, rfl⟩ : ∃ k', k = k' + 1 := ⟨k - 1, by omega⟩
    rw [key j k s hj hR (by omega), if_neg (by exact hs.1), hK k (by omega)]
    rfl

/-- Shape at least 1: the draw, without the factor `b`. -/
theorem gammarMt1_ge (D : IdealRng G 1 μ) {a : ℝ} (ha : 1 ≤ a) :
    ∃ draw : σ → ℝ × σ, MeasurePreserving draw μ ((gammaMeasure a 1).prod μ) ∧
      ∀ᵐ s ∂μ, ∃ K, ∀ fuel, K ≤ fuel → ∀ b : ℝ,
        gammarMt1 G fuel (.fin a) (.fin b) s = .ok (.fin (b * (draw s).1), (draw s).2) := by
  set d : ℝ := a - 1 / 3 with hd
  have h9 : (0:ℝ) < 9 * d := by rw [hd]; linarith
  have hd0 : 0 < d := by linarith
  set c : ℝ := 1 / sqrt (9 * d) with hc
  have hc0 : 0 < c := by have := Real.sqrt_pos.2 h9; positivity
  have hcc : 9 * d * c ^ 2 = 1 := by
    rw [hc, div_pow, Real.sq_sqrt h9.le]
    field_simp
  obtain ⟨R, hR, hRae⟩ := exists_retry D.lawOne (measurableSet_mtFirst c) (mtFirst_ne_zero c)
  have hmt := marsaglia_tsang (b := 1) ha one_pos hd hc0 hcc
  have h2 := D.lawTwo hR
  obtain ⟨R2, hR2, hR2ae⟩ := exists_retry h2 (measurableSet_mtSecond d c) hmt.1
  have hends := ae_all_iff.2 (ae_innerEnds D hR hRae)
  refine ⟨fun s => (1 * d * (1 + c * (R2 s).1.1) ^ 3, (R2 s).2), ?_, ?_⟩
  · have hmt2 := hmt.2
    rw [inv_one] at hmt2
    have := isProbabilityMeasure_gammaMeasure (by linarith : 0 < a) one_pos
    exact (hmt2.prod (MeasurePreserving.id μ)).comp hR2
  · filter_upwards [hR2ae, hends] with s hs hg
    obtain ⟨n, hn, hR2s⟩ := hs
    obtain ⟨K, hK⟩ := mtOuter_hits D ha hd hc n s hn (hg n)
    refine ⟨K + 1, fun fuel hf b => ?_⟩
    obtain ⟨k, rfl⟩ : ∃ k', fuel = k' + 1 := ⟨fuel - 1, by omega⟩
    have hnot : ¬ PyFloat.lt (XR.fin a) (lit 1) = true := by simpa using ha
    have hdX : (XR.fin a - lit (1/3) : XR) = .fin d := by rw [hd]; simp
    have hcX : lit 1 / PyFloat.sqrt (lit 9 * XR.fin d) = XR.fin c := by
      rw [XR.lit_eq, XR.lit_eq, XR.fin_mul, show (((9:ℚ):ℝ)) = 9 by norm_num, XR.sqrt_fin h9.le,
        XR.fin_div (Real.sqrt_pos.2 h9).ne', hc]
      simp
    rw [gammarMt1, if_neg hnot]
    simp only [hdX, hcX]
    rw [hK (k + 1) (by omega), ok_bind, hR2s, XR.fin_mul, XR.fin_mul]
    congr 3
    ring

end Verif
