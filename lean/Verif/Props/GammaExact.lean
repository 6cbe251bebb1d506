import Verif.Props.QuickTest
import Verif.Props.PositiveVariance

/-! # C24: the gamma generator returns the first candidate that passes the exact test -/

set_option linter.unusedSectionVars false

namespace Verif
open Real
variable {σ : Type}

/-- The rejection method of Marsaglia and Tsang for shape `a`, with the exact test only: from the state `s` of the
generator, normal draws `x` are made until `1 + x / √(9 (a - 1/3))` is positive, then a uniform draw `u`, and all this
is repeated until `log u < x²/2 + (a - 1/3) (1 - t³ + log t³)` for this positive number `t`; `s'` is the state
after. -/
inductive FirstAccepted (G : Rng σ XR) (a : ℝ) : σ → ℝ → σ → Prop
  | again {s s' : σ} {x t' : ℝ} (hx : (G.randn 1 s).1 0 = .fin x) (ht : 1 + x / sqrt (9 * (a - 1 / 3)) ≤ 0)
      (h : FirstAccepted G a (G.randn 1 s).2 t' s') : FirstAccepted G a s t' s'
  | accept {s : σ} {x t u : ℝ} (hx : (G.randn 1 s).1 0 = .fin x) (ht : t = 1 + x / sqrt (9 * (a - 1 / 3)))
      (h0 : 0 < t) (hu : (G.rand (G.randn 1 s).2).1 = .fin u)
      (h : log u < x ^ 2 / 2 + (a - 1 / 3) * (1 - t ^ 3 + log (t ^ 3))) :
      FirstAccepted G a s t (G.rand (G.randn 1 s).2).2
  | reject {s s' : σ} {x t u t' : ℝ} (hx : (G.randn 1 s).1 0 = .fin x) (ht : t = 1 + x / sqrt (9 * (a - 1 / 3)))
      (h0 : 0 < t) (hu : (G.rand (G.randn 1 s).2).1 = .fin u)
      (h : ¬ log u < x ^ 2 / 2 + (a - 1 / 3) * (1 - t ^ 3 + log (t ^ 3)))
      (hr : FirstAccepted G a (G.rand (G.randn 1 s).2).2 t' s') : FirstAccepted G a s t' s'

theorem mtInner_first {G : Rng σ XR} (hG : OpenDraws G) {a c : ℝ} (hc : c = 1 / sqrt (9 * (a - 1 / 3))) :
    ∀ {k : ℕ} {s : σ} {x v : XR} {s1 : σ}, mtInner G (.fin c) k s = .ok (x, v, s1) →
    ∃ s0 y t, x = .fin y ∧ v = .fin t ∧ t = 1 + y / sqrt (9 * (a - 1 / 3)) ∧ 0 < t ∧
      (G.randn 1 s0).1 0 = .fin y ∧ (G.randn 1 s0).2 = s1 ∧
      ∀ t' s', FirstAccepted G a s0 t' s' → FirstAccepted G a s t' s'
  | 0, _, _, _, _, h => by cases h
  | k + 1, s, x, v, s1, h => by
    unfold mtInner at h
    dsimp only at h
    obtain ⟨z, hz⟩ := hG.normal 1 s 0
    rw [hz] at h
    have e : (lit 1 + XR.fin c * XR.fin z : XR) = .fin (1 + z / sqrt (9 * (a - 1 / 3))) := by
      rw [hc]; simp; ring
    rw [e] at h
    split at h
    · rename_i hv
      cases h
      exact ⟨s, z, _, rfl, rfl, rfl, by simpa using hv, hz, rfl, fun _ _ h => h⟩
    · rename_i hv
      have hv : 1 + z / sqrt (9 * (a - 1 / 3)) ≤ 0 := by simpa using hv
      obtain ⟨s0, y, t, h1, h2, h3, h4, h5, h6, h7⟩ := mtInner_first hG hc h
      exact ⟨s0, y, t, h1, h2, h3, h4, h5, h6, fun t' s' hf => .again hz hv (h7 t' s' hf)⟩

theorem mtOuter_first {G : Rng σ XR} (hG : OpenDraws G) (hG1 : ∀ s u, (G.rand s).1 = .fin u → u < 1) {a c : ℝ}
    (ha : 1 ≤ a) (hc : c = 1 / sqrt (9 * (a - 1 / 3))) :
    ∀ {k : ℕ} {s : σ} {v : XR} {s' : σ}, mtOuter G (.fin c) (.fin (a - 1 / 3)) k s = .ok (v, s') →
    ∃ t, v = .fin (t ^ 3) ∧ FirstAccepted G a s t s'
  | 0, _, _, _, h => by cases h
  | k + 1, s, v, s', h => by
    unfold mtOuter at h
    obtain ⟨⟨x, v1, s1⟩, h1, h⟩ := bind_ok.1 h
    obtain ⟨s0, y, t, rfl, rfl, ht, h0, hy, rfl, hF⟩ := mtInner_first hG hc h1
    dsimp only at h
    obtain ⟨u, hu, hu0⟩ := hG.uniform (G.randn 1 s0).2
    have hu1 := hG1 _ _ hu
    rw [hu] at h
    have h9 : (0:ℝ) < 9 * (a - 1 / 3) := by linarith
    have e3 : (XR.fin t * XR.fin t * XR.fin t : XR) = .fin (t ^ 3) := by simp; ring
    rw [e3] at h
    have hex : mtExact (XR.fin (a - 1 / 3)) (.fin y) (.fin (t ^ 3)) (.fin u) = true ↔
        log u < y ^ 2 / 2 + (a - 1 / 3) * (1 - t ^ 3 + log (t ^ 3)) := by
      unfold mtExact
      rw [XR.log_fin hu0, XR.log_fin (by positivity)]
      simp only [XR.lit_eq, XR.fin_mul, XR.fin_add, XR.fin_sub, XR.fin_lt, decide_eq_true_eq]
      rw [show ((1 / 2 : ℚ) : ℝ) * (y * y) = y ^ 2 / 2 by push_cast; ring]
      norm_num
    have hq : mtQuick (XR.fin y) (.fin u) = true →
        mtExact (XR.fin (a - 1 / 3)) (.fin y) (.fin (t ^ 3)) (.fin u) = true := by
      intro hq
      have ec : (XR.fin c : XR) = lit 1 / PyFloat.sqrt (lit 9 * XR.fin (a - 1 / 3)) := by
        rw [XR.lit_eq, XR.lit_eq, XR.fin_mul, show (((9:ℚ):ℝ)) = 9 by norm_num, XR.sqrt_fin h9.le,
          XR.fin_div (Real.sqrt_pos.2 h9).ne', hc]
        simp
      have et : (lit 1 + XR.fin c * XR.fin y : XR) = .fin t := by rw [ht, hc]; simp; ring
      have := C24_quick_implies_exact (x := y) ha hu0 hu1 (d := .fin (a - 1 / 3)) (by simp) ec
        (by rw [et]; simpa using h0) hq
      rwa [et, e3] at this
    by_cases hE : mtExact (XR.fin (a - 1 / 3)) (.fin y) (.fin (t ^ 3)) (.fin u) = true
    · have hs : (v, s') = (XR.fin (t ^ 3), (G.rand (G.randn 1 s0).2).2) := by
        split at h
        · cases h; rfl
        · cases h; rfl
      cases hs
      exact ⟨t, rfl, hF _ _ (.accept hy ht h0 hu (hex.1 hE))⟩
    · rw [if_neg (fun hh => hE (hq hh)), if_neg hE] at h
      obtain ⟨t', e1, e2⟩ := mtOuter_first hG hG1 ha hc h
      exact ⟨t', e1, hF _ _ (.reject hy ht h0 hu (fun hh => hE (hex.2 hh)) e2)⟩

/-- **C24**, the generator.  With normal draws that are finite and uniform draws strictly between zero and one, for
every positive shape `a` and every scale `b`: a value that `gammar` returns is the one that the exact test alone gives -
for `a ≥ 1` the scale times `(a - 1/3) t³` with the first candidate `t` that passes the exact test; for `a < 1` the same
for the shape `1 + a`, times `u ^ (1/a)` with one further uniform draw `u`. -/
theorem C24_generator {G : Rng σ XR} (hG : OpenDraws G) (hG1 : ∀ s u, (G.rand s).1 = .fin u → u < 1) {a : ℝ}
    (ha : 0 < a) {b g : XR} {fuel : ℕ} {s s' : σ} (h : gammar G fuel (.fin a) b s = .ok (g, s')) :
    (1 ≤ a → ∃ t, FirstAccepted G a s t s' ∧ g = b * .fin (a - 1 / 3) * .fin (t ^ 3)) ∧
    (a < 1 → ∃ t s1 u, FirstAccepted G (1 + a) s t s1 ∧ G.rand s1 = (.fin u, s') ∧
      g = b * .fin (1 + a - 1 / 3) * .fin (t ^ 3) * .fin (u ^ (1 / a))) := by
  have key : ∀ {a : ℝ} {k : ℕ} {s s' : σ} {g : XR}, 1 ≤ a → gammarMt1 G k (.fin a) b s = .ok (g, s') →
      ∃ t, FirstAccepted G a s t s' ∧ g = b * .fin (a - 1 / 3) * .fin (t ^ 3) := by
    intro a k s s' g ha1 h
    cases k with
    | zero => cases h
    | succ k =>
      unfold gammarMt1 at h
      rw [if_neg (by simpa using ha1)] at h
      obtain ⟨⟨v, s1⟩, h1, h⟩ := bind_ok.1 h
      cases h
      have e : (XR.fin a - lit (1/3) : XR) = .fin (a - 1/3) := by simp
      have hd : (0:ℝ) < 9 * (a - 1/3) := by linarith
      have e2 : (lit 1 / PyFloat.sqrt (lit 9 * XR.fin (a - 1/3)) : XR)
          = .fin (1 / Real.sqrt (9 * (a - 1/3))) := by
        rw [XR.lit_eq, XR.lit_eq, XR.fin_mul]
        rw [show (((9:ℚ):ℝ)) = 9 by norm_num, XR.sqrt_fin hd.le,
          XR.fin_div (Real.sqrt_pos.2 hd).ne']
        simp
      rw [e, e2] at h1
      obtain ⟨t, rfl, hF⟩ := mtOuter_first hG hG1 ha1 rfl h1
      exact ⟨t, hF, by rw [e]⟩
  unfold gammar at h
  rw [if_neg (by simp [ha])] at h
  refine ⟨fun ha1 => key ha1 h, fun ha1 => ?_⟩
  cases fuel with
  | zero => cases h
  | succ k =>
    unfold gammarMt1 at h
    rw [if_pos (by simpa using ha1)] at h
    obtain ⟨⟨y, s1⟩, h1, h⟩ := bind_ok.1 h
    cases h
    have e : (lit 1 : XR) + .fin a = .fin (1 + a) := by simp
    rw [e] at h1
    obtain ⟨t, hF, rfl⟩ := key (by linarith) h1
    obtain ⟨u, hu, hu0⟩ := hG.uniform s1
    have e2 : (lit 1 : XR) / .fin a = .fin (1 / a) := by
      rw [XR.lit_eq, XR.fin_div ha.ne']; simp
    exact ⟨t, s1, u, hF, Prod.ext hu rfl, by rw [hu, e2, XR.pow_fin hu0]⟩

/-- The hypotheses hold: a source of draws whose first pair is accepted by the quick test. -/
example : ∃ (G : Rng Unit XR) (g : XR), OpenDraws G ∧ (∀ s u, (G.rand s).1 = .fin u → u < 1) ∧
    gammar G 1 (.fin 2) (.fin 1) () = .ok (g, ()) := by
  let G : Rng Unit XR := ⟨fun _ _ => (fun _ => .fin 0, ()), fun _ => (.fin (1/2), ())⟩
  have h0 : (lit 1 + lit 1 / PyFloat.sqrt (lit 9 * (XR.fin 2 - lit (1/3))) * XR.fin 0 : XR) = .fin 1 := by
    have e : (lit 9 * (XR.fin 2 - lit (1/3)) : XR) = .fin 15 := by simp; norm_num
    rw [e, XR.sqrt_fin (by norm_num), XR.lit_eq, XR.fin_div (Real.sqrt_pos.2 (by norm_num)).ne']
    simp
  refine ⟨G, .fin 1 * (.fin 2 - lit (1/3)) * (.fin 1 * .fin 1 * .fin 1), ⟨fun _ _ _ => ⟨0, rfl⟩, fun _ => ⟨1/2, rfl, by norm_num⟩⟩, fun s u h => ?_, ?_⟩
  · cases h; norm_num
  · unfold gammar gammarMt1 mtOuter mtInner
    rw [if_neg (by simp), if_neg (by simp)]
    simp only [G]
    rw [h0, if_pos (by simp)]
    simp only [ok_bind]
    rw [if_pos (by simp [mtQuick]; norm_num)]
    rfl

end Verif
