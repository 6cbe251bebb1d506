import Mathlib.Analysis.Calculus.Deriv.MeanValue
import Mathlib.Analysis.SpecialFunctions.Log.Deriv
import Mathlib.Analysis.SpecialFunctions.Pow.Deriv
import Mathlib.Analysis.Convex.SpecificFunctions.Basic
import Mathlib.Analysis.Complex.ExponentialBounds
import Mathlib.Topology.Order.IntermediateValue
import Verif.Model.ErrorVariance
import Verif.Lemmas.XR

/-! # C24: the quick test of the gamma generator -/

set_option linter.unusedSectionVars false

namespace Verif
open Real

/-- `2 log (1-s) + 2s + s² + ⅔s³ - log (1 - B s⁴)` with `B = 1.1916` -/
noncomputable def qtPsi (s : ℝ) : ℝ :=
  2 * log (1 - s) + (2 * s + s ^ 2 + 2 / 3 * s ^ 3) - log (1 - 2979 / 2500 * s ^ 4)

theorem qtPsi_deriv {s : ℝ} (h1 : s < 1) (h2 : 0 < 1 - 2979 / 2500 * s ^ 4) :
    HasDerivAt qtPsi (s ^ 3 * (2 * (2979 / 2500) * (s ^ 4 - 2 * s) + (4 * (2979 / 2500) - 2)) /
      ((1 - s) * (1 - 2979 / 2500 * s ^ 4))) s := by
  have e1 : HasDerivAt (fun s : ℝ => 2 * log (1 - s)) (2 * (-1 / (1 - s))) s :=
    (((hasDerivAt_id s).const_sub 1).log (by simp; linarith)).const_mul 2
  have e2 : HasDerivAt (fun s : ℝ => 2 * s + s ^ 2 + 2 / 3 * s ^ 3)
      (2 * 1 + (2:ℕ) * s ^ (2 - 1) * 1 + 2 / 3 * ((3:ℕ) * s ^ (3 - 1) * 1)) s :=
    (((hasDerivAt_id s).const_mul 2).add ((hasDerivAt_id s).pow 2)).add
      (((hasDerivAt_id s).pow 3).const_mul (2/3))
  have e3 : HasDerivAt (fun s : ℝ => log (1 - 2979 / 2500 * s ^ 4))
      ((-(2979 / 2500 * ((4:ℕ) * s ^ (4 - 1) * 1))) / (1 - 2979 / 2500 * s ^ 4)) s :=
    ((((hasDerivAt_id s).pow 4).const_mul (2979/2500)).const_sub 1).log h2.ne'
  have := (e1.add e2).sub e3
  refine this.congr_deriv ?_
  have h1' : (1 - s) ≠ 0 := by linarith
  have h2' := h2.ne'
  clear e1 e2 e3 this h2
  generalize hD : 1 - 2979 / 2500 * s ^ 4 = D at h2' ⊢
  push_cast
  field_simp
  rw [← hD]
  ring

theorem qtPsi_roots : ∃ s1 s2 : ℝ, 0 < s1 ∧ s1 < s2 ∧ s2 ≤ 8796 / 10000 ∧ 879 / 1000 ≤ s2 ∧
    2 * (2979 / 2500) * (s2 ^ 4 - 2 * s2) + (4 * (2979 / 2500) - 2) = 0 ∧
    ∀ s : ℝ, 2 * (2979 / 2500) * (s ^ 4 - 2 * s) + (4 * (2979 / 2500) - 2)
      = 2 * (2979 / 2500) * ((s - s1) * (s - s2) *
        (s ^ 2 + (s1 + s2) * s + ((s1 + s2) ^ 2 - s1 * s2))) := by
  let q : ℝ → ℝ := fun s => 2 * (2979 / 2500) * (s ^ 4 - 2 * s) + (4 * (2979 / 2500) - 2)
  have hc : Continuous q := by fun_prop
  obtain ⟨s1, ⟨a1, a2⟩, h1⟩ : (0:ℝ) ∈ q '' Set.Icc (69/100) (75/100) :=
    intermediate_value_Icc' (by norm_num) hc.continuousOn ⟨by norm_num [q], by norm_num [q]⟩
  obtain ⟨s2, ⟨b1, b2⟩, h2⟩ : (0:ℝ) ∈ q '' Set.Icc (879/1000) (8796/10000) :=
    intermediate_value_Icc (by norm_num) hc.continuousOn ⟨by norm_num [q], by norm_num [q]⟩
  have hne : s2 - s1 ≠ 0 := by have : s1 < s2 := by linarith
                               linarith
  have hk : (s1 + s2) * (s1 ^ 2 + s2 ^ 2) = 2 := by
    have : (s2 - s1) * ((s1 + s2) * (s1 ^ 2 + s2 ^ 2)) = (s2 - s1) * 2 := by
      simp only [q] at h1 h2
      nlinarith
    exact mul_left_cancel₀ hne this
  refine ⟨s1, s2, by linarith, by linarith, b2, b1, h2, fun s => ?_⟩
  have h2' : 4 * (2979 / 2500) - 2 = -(2 * (2979 / 2500) * (s2 ^ 4 - 2 * s2)) := by
    have : q s2 = 0 := h2
    simp only [q] at this
    linarith
  rw [h2']
  linear_combination (2 * (2979 / 2500) * (s - s2)) * hk

theorem qtPsi_nonneg {s : ℝ} (h0 : 0 ≤ s) (h1 : s < 1) (h2 : 0 < 1 - 2979 / 2500 * s ^ 4) :
    0 ≤ qtPsi s := by
  obtain ⟨s1, s2, p1, p12, p2, p2', hr, hq⟩ := qtPsi_roots
  have hdom : ∀ {a b : ℝ}, 0 ≤ a → a ≤ b → b < 1 → 0 < 1 - 2979 / 2500 * b ^ 4 →
      a < 1 ∧ 0 < 1 - 2979 / 2500 * a ^ 4 := by
    intro a b ha hab hb hb'
    have := pow_le_pow_left₀ ha hab 4
    exact ⟨by linarith, by linarith⟩
  have hzero : qtPsi 0 = 0 := by norm_num [qtPsi]
  have hs2dom : 0 < 1 - 2979 / 2500 * s2 ^ 4 := by
    have := pow_le_pow_left₀ (by linarith : (0:ℝ) ≤ s2) p2 4
    norm_num at this ⊢
    linarith
  have hm : 0 < (s1 + s2) ^ 2 - s1 * s2 := by nlinarith [sq_nonneg (s1 + s2), mul_pos p1 (p1.trans p12)]
  have hm' : ∀ t : ℝ, 0 ≤ t → 0 < t ^ 2 + (s1 + s2) * t + ((s1 + s2) ^ 2 - s1 * s2) := by
    intro t ht
    have := mul_nonneg (by linarith : (0:ℝ) ≤ s1 + s2) ht
    positivity
  have hden : ∀ t : ℝ, t < 1 → 0 < 1 - 2979 / 2500 * t ^ 4 →
      0 < (1 - t) * (1 - 2979 / 2500 * t ^ 4) := fun t h h' => mul_pos (by linarith) h'
  have hcont : ∀ a b : ℝ, 0 ≤ a → b < 1 → 0 < 1 - 2979 / 2500 * b ^ 4 →
      ContinuousOn qtPsi (Set.Icc a b) := by
    intro a b ha hb hb' t ht
    obtain ⟨d1, d2⟩ := hdom (ha.trans ht.1) ht.2 hb hb'
    exact (qtPsi_deriv d1 d2).continuousAt.continuousWithinAt
  -- increasing up to `s1` and from `s2` on
  have hmono : ∀ a b : ℝ, 0 ≤ a → a ≤ b → b < 1 → 0 < 1 - 2979 / 2500 * b ^ 4 →
      (b ≤ s1 ∨ s2 ≤ a) → qtPsi a ≤ qtPsi b := by
    intro a b ha hab hb hb' hc
    refine monotoneOn_of_deriv_nonneg (convex_Icc a b) (hcont a b ha hb hb') ?_ ?_
      (Set.left_mem_Icc.2 hab) (Set.right_mem_Icc.2 hab) hab
    · intro t ht
      rw [interior_Icc] at ht
      obtain ⟨d1, d2⟩ := hdom (ha.trans ht.1.le) ht.2.le hb hb'
      exact (qtPsi_deriv d1 d2).differentiableAt.differentiableWithinAt
    · intro t ht
      rw [interior_Icc] at ht
      obtain ⟨d1, d2⟩ := hdom (ha.trans ht.1.le) ht.2.le hb hb'
      have ht0 := ha.trans ht.1.le
      rw [(qtPsi_deriv d1 d2).deriv, hq]
      have : 0 ≤ (t - s1) * (t - s2) := by
        rcases hc with hc | hc
        · exact mul_nonneg_of_nonpos_of_nonpos (by linarith [ht.2]) (by linarith [ht.2])
        · exact mul_nonneg (by linarith [ht.1]) (by linarith [ht.1])
      have := mul_nonneg this (hm' t ht0).le
      refine div_nonneg (mul_nonneg (pow_nonneg ht0 3) (by linarith)) (hden t d1 d2).le
  have hanti : ∀ a b : ℝ, s1 ≤ a → a ≤ b → b ≤ s2 → qtPsi b ≤ qtPsi a := by
    intro a b ha hab hb2
    have ha0 : 0 ≤ a := by linarith
    have hb : b < 1 := by linarith
    have hb' := (hdom (ha0.trans hab) hb2 (by linarith) hs2dom).2
    refine antitoneOn_of_deriv_nonpos (convex_Icc a b) (hcont a b ha0 hb hb') ?_ ?_
      (Set.left_mem_Icc.2 hab) (Set.right_mem_Icc.2 hab) hab
    · intro t ht
      rw [interior_Icc] at ht
      obtain ⟨d1, d2⟩ := hdom (ha0.trans ht.1.le) ht.2.le hb hb'
      exact (qtPsi_deriv d1 d2).differentiableAt.differentiableWithinAt
    · intro t ht
      rw [interior_Icc] at ht
      obtain ⟨d1, d2⟩ := hdom (ha0.trans ht.1.le) ht.2.le hb hb'
      have ht0 := ha0.trans ht.1.le
      rw [(qtPsi_deriv d1 d2).deriv, hq]
      have : (t - s1) * (t - s2) ≤ 0 :=
        mul_nonpos_of_nonneg_of_nonpos (by linarith [ht.1]) (by linarith [ht.2])
      have := mul_nonpos_of_nonpos_of_nonneg this (hm' t ht0).le
      refine div_nonpos_of_nonpos_of_nonneg
        (mul_nonpos_of_nonneg_of_nonpos (pow_nonneg ht0 3) (by linarith)) (hden t d1 d2).le
  -- the value at `s2`
  have hmin : 0 ≤ qtPsi s2 := by
    have e : 1 - 2979 / 2500 * s2 ^ 4 = 2 * (2979 / 2500) * (1 - s2) := by linarith
    have hlog : log (1 - 2979 / 2500 * s2 ^ 4) = log (2 * (2979 / 2500)) + log (1 - s2) := by
      rw [e, log_mul (by norm_num) (by linarith)]
    unfold qtPsi
    rw [hlog]
    -- `log (1 - s) + 2s + s² + ⅔s³` at `s2` is at least its value at `b`
    have hb0 : (0:ℝ) < 1 - s2 := by linarith
    have hstep : log (1 - 8796/10000) + (2 * (8796/10000) + (8796/10000) ^ 2 + 2/3 * (8796/10000 : ℝ) ^ 3)
        ≤ log (1 - s2) + (2 * s2 + s2 ^ 2 + 2 / 3 * s2 ^ 3) := by
      have h3 : log (1 - 8796/10000) - log (1 - s2) ≤ (1 - 8796/10000) / (1 - s2) - 1 := by
        rw [← log_div (by norm_num) hb0.ne']
        exact log_le_sub_one_of_pos (div_pos (by norm_num) hb0)
      have h4 : ((1 - 8796/10000) / (1 - s2) - 1 : ℝ) = -((8796/10000 - s2) / (1 - s2)) := by
        field_simp; ring
      have h5 : (8796/10000 - s2) * 8 ≤ (8796/10000 - s2) / (1 - s2) := by
        rw [le_div_iff₀ hb0]
        nlinarith
      have h6 : (2 * (8796/10000) + (8796/10000) ^ 2 + 2/3 * (8796/10000 : ℝ) ^ 3)
          - (2 * s2 + s2 ^ 2 + 2 / 3 * s2 ^ 3) ≤ (8796/10000 - s2) * 8 := by
        have : (2 * (8796/10000) + (8796/10000) ^ 2 + 2/3 * (8796/10000 : ℝ) ^ 3)
          - (2 * s2 + s2 ^ 2 + 2 / 3 * s2 ^ 3) = (8796/10000 - s2) *
            (2 + (8796/10000 + s2) + 2/3 * ((8796/10000)^2 + 8796/10000 * s2 + s2^2)) := by ring
        rw [this]
        refine mul_le_mul_of_nonneg_left ?_ (by linarith)
        nlinarith
      linarith
    have hexp : log (2 * (2979 / 2500)) - log (1 - 8796/10000)
        ≤ 2 * (8796/10000) + (8796/10000) ^ 2 + 2/3 * (8796/10000 : ℝ) ^ 3 := by
      rw [← log_div (by norm_num) (by norm_num), log_le_iff_le_exp (by norm_num)]
      have h7 : (2 * (8796/10000) + (8796/10000) ^ 2 + 2/3 * (8796/10000 : ℝ) ^ 3)
          = 3 + ((2 * (8796/10000) + (8796/10000) ^ 2 + 2/3 * (8796/10000 : ℝ) ^ 3) - 3) := by ring
      rw [h7, exp_add]
      have h8 := add_one_le_exp ((2 * (8796/10000) + (8796/10000) ^ 2 + 2/3 * (8796/10000 : ℝ) ^ 3) - 3)
      have h9 : (2.7182818283 : ℝ) ^ 3 ≤ exp 3 := by
        have := pow_le_pow_left₀ (by norm_num) exp_one_gt_d9.le 3
        rwa [← exp_nat_mul, show ((3:ℕ):ℝ) * 1 = 3 by norm_num] at this
      have h10 : (0:ℝ) ≤ (2 * (8796/10000) + (8796/10000) ^ 2 + 2/3 * (8796/10000 : ℝ) ^ 3) - 3 + 1 := by
        norm_num
      refine le_trans ?_ (mul_le_mul h9 h8 h10 (exp_pos 3).le)
      norm_num
    linarith
  rcases le_total s s1 with h | h
  · have := hmono 0 s le_rfl h0 h1 h2 (.inl h)
    rwa [hzero] at this
  · rcases le_total s s2 with h' | h'
    · exact hmin.trans (hanti s s2 h h' le_rfl)
    · exact hmin.trans (hmono s2 s (by linarith) h' h1 h2 (.inr le_rfl))

/-- for `t ≥ 0` -/
theorem qt_log_lower {t : ℝ} (ht : 0 ≤ t) : t - t ^ 2 / 2 + t ^ 3 / 3 - t ^ 4 / 4 ≤ log (1 + t) := by
  let f : ℝ → ℝ := fun t => log (1 + t) - (t - t ^ 2 / 2 + t ^ 3 / 3 - t ^ 4 / 4)
  have hd : ∀ s : ℝ, 0 ≤ s → HasDerivAt f (s ^ 4 / (1 + s)) s := by
    intro s hs
    have e1 : HasDerivAt (fun s : ℝ => log (1 + s)) (1 / (1 + s)) s :=
      ((hasDerivAt_id s).const_add 1).log (by simp; linarith)
    have e2 : HasDerivAt (fun s : ℝ => s - s ^ 2 / 2 + s ^ 3 / 3 - s ^ 4 / 4)
      (1 - (2:ℕ) * s ^ (2 - 1) * 1 / 2 + (3:ℕ) * s ^ (3 - 1) * 1 / 3 - (4:ℕ) * s ^ (4 - 1) * 1 / 4) s :=
      (((hasDerivAt_id s).sub (((hasDerivAt_id s).pow 2).div_const 2)).add
        (((hasDerivAt_id s).pow 3).div_const 3)).sub (((hasDerivAt_id s).pow 4).div_const 4)
    refine (e1.sub e2).congr_deriv ?_
    have : (1 + s) ≠ 0 := by linarith
    push_cast
    field_simp
    ring
  have : f 0 ≤ f t := by
    refine monotoneOn_of_deriv_nonneg (convex_Icc 0 t)
      (fun s hs => (hd s hs.1).continuousAt.continuousWithinAt) ?_ ?_
      (Set.left_mem_Icc.2 ht) (Set.right_mem_Icc.2 ht) ht
    · intro s hs
      rw [interior_Icc] at hs
      exact (hd s hs.1.le).differentiableAt.differentiableWithinAt
    · intro s hs
      rw [interior_Icc] at hs
      rw [(hd s hs.1.le).deriv]
      have := hs.1
      positivity
  simp [f] at this
  linarith

/-- the inequality for the smallest shape, `d = 2/3` -/
theorem qt_base {t : ℝ} (h1 : -1 < t) (h2 : 0 < 1 - 2979 / 2500 * t ^ 4) :
    log (1 - 2979 / 2500 * t ^ 4) ≤ 2 * log (1 + t) - 2 * t + t ^ 2 - 2 / 3 * t ^ 3 := by
  rcases le_total 0 t with ht | ht
  · have h3 := qt_log_lower ht
    have h4 := log_le_sub_one_of_pos h2
    have : 0 ≤ t ^ 4 := by positivity
    linarith
  · have := qtPsi_nonneg (s := -t) (by linarith) (by linarith) (by simpa [Even.neg_pow (⟨2, rfl⟩ : Even 4)] using h2)
    unfold qtPsi at this
    have e4 : (-t) ^ 4 = t ^ 4 := by ring
    have e1 : 1 - -t = 1 + t := by ring
    rw [e4, e1] at this
    nlinarith

/-- the inequality between the two tests, for every `d ≥ 2/3` -/
theorem qt_all {d t : ℝ} (hd : 2 / 3 ≤ d) (h1 : -1 < t) (h2 : 0 < 1 - 331 / 10000 * 81 * d ^ 2 * t ^ 4) :
    log (1 - 331 / 10000 * 81 * d ^ 2 * t ^ 4)
      ≤ d * (3 * log (1 + t) - 3 * t + 3 / 2 * t ^ 2 - t ^ 3) := by
  set r : ℝ := d / (2 / 3) with hr
  have hr1 : 1 ≤ r := by rw [hr, le_div_iff₀ (by norm_num)]; linarith
  have hd' : d = r * (2 / 3) := by rw [hr]; field_simp
  set y : ℝ := 2979 / 2500 * t ^ 4 with hy
  have hy0 : 0 ≤ y := by rw [hy]; positivity
  have e : 331 / 10000 * 81 * d ^ 2 * t ^ 4 = r ^ 2 * y := by rw [hd', hy]; ring
  rw [e] at h2 ⊢
  have hry : r * y ≤ r ^ 2 * y := by nlinarith [mul_nonneg (mul_nonneg (by linarith : (0:ℝ) ≤ r) hy0) (by linarith : (0:ℝ) ≤ r - 1)]
  have hyr : y ≤ r * y := by nlinarith
  have hy1 : 0 < 1 - y := by linarith
  have hb := one_add_mul_self_le_rpow_one_add (s := -y) (by linarith) hr1
  have h3 : log (1 - r ^ 2 * y) ≤ r * log (1 - y) := by
    rw [← log_rpow hy1]
    refine log_le_log h2 ?_
    have : 1 + -y = 1 - y := by ring
    rw [this] at hb
    linarith
  have h4 := qt_base h1 hy1
  have h5 := mul_le_mul_of_nonneg_left h4 (by linarith : 0 ≤ r)
  rw [hd']
  refine h3.trans (h5.trans (le_of_eq ?_))
  ring

/-- **C24.** The quick test of the gamma generator only accepts what the exact test accepts: for
every shape `a ≥ 1`, with the constants `d` and `c` the generator computes from it, every normal draw
`x` that passes the first loop and every uniform draw `u` in `(0, 1)`. -/
theorem C24_quick_implies_exact {a x u : ℝ} (ha : 1 ≤ a) (hu : 0 < u) (hu1 : u < 1)
    {d c : XR} (hd : d = .fin a - lit (1/3)) (hc : c = lit 1 / PyFloat.sqrt (lit 9 * d))
    (hv : PyFloat.lt (lit 0) (lit 1 + c * .fin x) = true)
    (hq : mtQuick (XR.fin x) (XR.fin u) = true) :
    mtExact d (.fin x) ((lit 1 + c * .fin x) * (lit 1 + c * .fin x) * (lit 1 + c * .fin x)) (.fin u)
      = true := by
  have hd' : d = .fin (a - 1/3) := by rw [hd]; simp
  have hd0 : (2:ℝ) / 3 ≤ a - 1/3 := by linarith
  have h9 : (0:ℝ) < 9 * (a - 1/3) := by linarith
  have hc' : c = .fin (1 / sqrt (9 * (a - 1/3))) := by
    rw [hc, hd', XR.lit_eq, XR.lit_eq, XR.fin_mul]
    rw [show (((9:ℚ):ℝ)) = 9 by norm_num, XR.sqrt_fin h9.le, XR.fin_div (Real.sqrt_pos.2 h9).ne']
    simp
  set w : ℝ := sqrt (9 * (a - 1/3)) with hw
  have hw0 : 0 < w := Real.sqrt_pos.2 h9
  have hww : w ^ 2 = 9 * (a - 1/3) := Real.sq_sqrt h9.le
  have e1 : (lit 1 + c * .fin x : XR) = .fin (1 + x / w) := by rw [hc']; simp; ring
  rw [e1] at hv ⊢
  have hv' : 0 < 1 + x / w := by simpa using hv
  have hq' : u < 1 - 331 / 10000 * (x * x * x * x) := by simpa [mtQuick] using hq
  unfold mtExact
  rw [XR.log_fin hu, XR.fin_mul, XR.fin_mul, XR.fin_mul, XR.log_fin (mul_pos (mul_pos hv' hv') hv'), hd']
  simp only [XR.lit_eq, XR.fin_mul, XR.fin_add, XR.fin_sub, XR.fin_lt, decide_eq_true_eq]
  set t : ℝ := x / w with ht
  have hx : x = w * t := by rw [ht]; field_simp
  have hx2 : x * x = 9 * (a - 1/3) * t ^ 2 := by rw [hx, ← hww]; ring
  have hx4 : 331 / 10000 * (x * x * x * x) = 331 / 10000 * 81 * (a - 1/3) ^ 2 * t ^ 4 := by
    have : x * x * x * x = (x * x) * (x * x) := by ring
    rw [this, hx2]; ring
  rw [hx4] at hq'
  have h := qt_all hd0 (by linarith : -1 < t) (by linarith)
  have hlog : log ((1 + t) * (1 + t) * (1 + t)) = 3 * log (1 + t) := by
    rw [log_mul (by positivity) hv'.ne', log_mul hv'.ne' hv'.ne']; ring
  rw [hlog, hx2]
  have hlt : log u < log (1 - 331 / 10000 * 81 * (a - 1/3) ^ 2 * t ^ 4) := log_lt_log hu hq'
  push_cast
  refine hlt.trans_le (h.trans (le_of_eq ?_))
  ring

/-- `a = 1`, `x = -2`, `u = 1/3`: close to where the two tests differ least -/
example : PyFloat.lt (lit 0 : XR) (lit 1 + (lit 1 / PyFloat.sqrt (lit 9 * (.fin 1 - lit (1/3)))) * .fin (-2)) = true ∧
    mtQuick (XR.fin (-2)) (XR.fin (1/3)) = true := by
  constructor
  · have e : (lit 9 * (.fin 1 - lit (1/3)) : XR) = .fin 6 := by simp; norm_num
    have e' : (lit 1 / XR.fin (sqrt 6) : XR) = .fin (1 / sqrt 6) := by
      rw [XR.lit_eq, XR.fin_div (Real.sqrt_pos.2 (by norm_num)).ne']; simp
    rw [e, XR.sqrt_fin (by norm_num), e']
    have h6 : 2 < sqrt 6 := by
      rw [Real.lt_sqrt (by norm_num)]; norm_num
    have : 2 / sqrt 6 < 1 := by rw [div_lt_one (by linarith)]; exact h6
    simp
    have e2 : (sqrt 6)⁻¹ * 2 = 2 / sqrt 6 := by ring
    linarith
  · simp [mtQuick]; norm_num

end Verif
