import Verif.Model.Spectrum
import Verif.Props.ChainStats
import Verif.Props.Autocorrelation
import Mathlib.Algebra.Order.Chebyshev

/-! # C151: power spectral density at all frequencies -/

namespace Verif
set_option linter.unusedSectionVars false

open Finset

/-! ### Vocabulary -/

/-- number of windows of `nw` rows, each starting `nw - nw / 2` rows after the one before, in `n` rows -/
def windowCount (n nw : ℕ) : ℕ := (n - nw / 2) / (nw - nw / 2)

/-- row `t` of window `ii` of a column, multiplied by the bell `(1 - cos(2π(t+1)/(nw+1)))/2` -/
noncomputable def tapered (x : List ℝ) (nw ii t : ℕ) : ℝ :=
  (1 - Real.cos (2 * Real.pi * (t + 1) / (nw + 1))) / 2 * x.getD (ii * (nw - nw / 2) + t) 0

/-- squared modulus of frequency `j` of the Fourier transform of length `N` of the first `L` numbers `a` -/
noncomputable def tonePower (a : ℕ → ℝ) (L N j : ℕ) : ℝ :=
  (∑ t ∈ range L, a t * Real.cos (2 * Real.pi * j * t / N)) ^ 2 +
  (∑ t ∈ range L, a t * Real.sin (2 * Real.pi * j * t / N)) ^ 2

/-- sum of the squares of the bell of length `nw` -/
noncomputable def bellEnergy (nw : ℕ) : ℝ :=
  ∑ t ∈ range nw, ((1 - Real.cos (2 * Real.pi * (t + 1) / (nw + 1))) / 2) ^ 2

/-- frequency `j` of the averaged, normalised spectrum of a column -/
noncomputable def meanTone (x : List ℝ) (N nw j : ℕ) : ℝ :=
  (∑ ii ∈ range (windowCount x.length nw), tonePower (tapered x nw ii) (min nw N) N j) /
    (windowCount x.length nw * bellEnergy nw)

/-! ### The function -/

theorem windowCount_pos {n nw : ℕ} (h1 : 1 ≤ nw) (hn : nw ≤ n) : 0 < windowCount n nw := by
  unfold windowCount
  apply Nat.div_pos <;> omega

theorem window_inside {n nw k i : ℕ} (hk : k < windowCount n nw) (hi : i < nw) :
    k * (nw - nw / 2) + i < n := by
  have h1 : (k + 1) * (nw - nw / 2) ≤ n - nw / 2 :=
    (Nat.mul_le_mul_right _ hk).trans (Nat.div_mul_le_self _ _)
  have h2 : (k + 1) * (nw - nw / 2) = k * (nw - nw / 2) + (nw - nw / 2) := by ring
  omega

theorem hann_eq (nw i : ℕ) :
    hannWindow nw i = (1 - Real.cos (2 * Real.pi * (i + 1) / (nw + 1))) / 2 := by
  unfold hannWindow
  ring

theorem bellEnergy_pos {nw : ℕ} (h1 : 1 ≤ nw) : 0 < bellEnergy nw := by
  unfold bellEnergy
  apply Finset.sum_pos
  · intro i hi
    have := hanning_pos (mem_range.1 hi)
    unfold hanning at this
    have h2 : 0 < (1 - Real.cos (2 * Real.pi * (i + 1) / (nw + 1))) / 2 := by linarith
    positivity
  · exact ⟨0, mem_range.2 h1⟩

theorem getD_in {l : List ℝ} {t : ℕ} (h : t < l.length) : l.getD t 0 = l[t] := by
  rw [List.getD_eq_getElem?_getD, List.getElem?_eq_getElem h]; rfl

theorem getD_beyond {l : List ℝ} {t : ℕ} (h : l.length ≤ t) : l.getD t 0 = 0 := by
  rw [List.getD_eq_getElem?_getD, List.getElem?_eq_none h]; rfl

theorem range_map_total (f : ℕ → ℝ) (n : ℕ) : ((List.range n).map f).sum = ∑ t ∈ range n, f t := by
  induction n with
  | zero => simp
  | succ n ih => rw [List.range_succ, List.map_append, List.sum_append, ih, Finset.sum_range_succ]; simp

theorem sum_padded (a g : ℕ → ℝ) (nw N : ℕ) :
    ((List.range N).map fun t => ((List.range nw).map a).getD t 0 * g t).sum =
      ∑ t ∈ range (min nw N), a t * g t := by
  rw [range_map_total]
  symm
  apply Finset.sum_subset_zero_on_sdiff
  · intro t ht
    simp only [mem_range] at ht ⊢
    omega
  · intro t ht
    simp only [mem_sdiff, mem_range] at ht
    rw [getD_beyond (by simp; omega), zero_mul]
  · intro t ht
    simp only [mem_range] at ht
    rw [getD_in (by simp; omega)]
    simp

theorem powerSpectrum_ok {x : List ℝ} {nfft nw : Option ℕ} {N W : ℕ} (hN : nfft.getD (min x.length 256) = N)
    (hW : nw.getD (N / 4) = W) (h1 : 1 ≤ W) (hn : W ≤ x.length) (hN1 : 1 ≤ N) :
    powerSpectrum x nfft nw = .ok ((List.range (N / 2)).map (meanTone x N W)) := by
  unfold powerSpectrum
  simp only [hN, hW]
  rw [if_neg (by omega), if_neg (by omega), if_neg (by omega)]
  have hws : (List.range (windowCount x.length W)).mapM (fun ii => (List.range W).mapM fun i =>
      (pyGet x (ii * (W - W / 2) + i)).map fun v => hannWindow W i * v) =
      .ok ((List.range (windowCount x.length W)).map fun ii => (List.range W).map (tapered x W ii)) := by
    apply mapM_eq_ok
    intro ii hii
    apply mapM_eq_ok
    intro i hi
    have hlt := window_inside (List.mem_range.1 hii) (List.mem_range.1 hi)
    unfold pyGet tapered
    rw [List.getElem?_eq_getElem hlt, List.getD_eq_getElem?_getD, List.getElem?_eq_getElem hlt, hann_eq]
    rfl
  unfold windowCount at hws
  rw [hws, ok_bind]
  congr 1
  apply List.map_congr_left
  intro j _
  rw [List.map_map, range_map_total, range_map_total]
  unfold meanTone windowCount bellEnergy
  rw [mul_one_div]
  congr 1
  · apply Finset.sum_congr rfl
    intro ii _
    simp only [Function.comp, fftPower, tonePower]
    rw [sum_padded, sum_padded]
  · simp only [hann_eq]

theorem tonePower_nonneg (a : ℕ → ℝ) (L N j : ℕ) : 0 ≤ tonePower a L N j := by
  unfold tonePower; positivity

theorem meanTone_nonneg (x : List ℝ) (N nw j : ℕ) : 0 ≤ meanTone x N nw j := by
  unfold meanTone
  apply div_nonneg
  · exact Finset.sum_nonneg fun _ _ => tonePower_nonneg _ _ _ _
  · unfold bellEnergy; positivity

theorem tonePower_le (a : ℕ → ℝ) (L N j : ℕ) : tonePower a L N j ≤ (∑ t ∈ range L, |a t|) ^ 2 := by
  unfold tonePower
  set C := ∑ t ∈ range L, a t * Real.cos (2 * Real.pi * j * t / N) with hC
  set S := ∑ t ∈ range L, a t * Real.sin (2 * Real.pi * j * t / N) with hS
  set A := ∑ t ∈ range L, |a t|
  have hA : 0 ≤ A := Finset.sum_nonneg fun _ _ => abs_nonneg _
  set r := Real.sqrt (C ^ 2 + S ^ 2)
  have hr : r ^ 2 = C ^ 2 + S ^ 2 := Real.sq_sqrt (by positivity)
  have hr0 : 0 ≤ r := Real.sqrt_nonneg _
  have key : C ^ 2 + S ^ 2 ≤ A * r := by
    have e : C ^ 2 + S ^ 2 = ∑ t ∈ range L,
        a t * (C * Real.cos (2 * Real.pi * j * t / N) + S * Real.sin (2 * Real.pi * j * t / N)) := by
      have e1 : C ^ 2 + S ^ 2 = C * C + S * S := by ring
      rw [e1]
      nth_rw 2 [hC]
      nth_rw 3 [hS]
      rw [Finset.mul_sum, Finset.mul_sum, ← Finset.sum_add_distrib]
      exact Finset.sum_congr rfl fun _ _ => by ring
    rw [e, Finset.sum_mul]
    apply Finset.sum_le_sum
    intro t _
    refine (le_abs_self _).trans ?_
    rw [abs_mul]
    apply mul_le_mul_of_nonneg_left _ (abs_nonneg _)
    apply Real.abs_le_sqrt
    nlinarith [Real.sin_sq_add_cos_sq (2 * Real.pi * j * t / N),
      sq_nonneg (C * Real.sin (2 * Real.pi * j * t / N) - S * Real.cos (2 * Real.pi * j * t / N))]
  rw [← hr] at key ⊢
  have : r ≤ A := by
    by_contra hlt
    push Not at hlt
    nlinarith
  exact pow_le_pow_left₀ hr0 this 2

theorem meanTone_le {x : List ℝ} {nw : ℕ} {B : ℝ} (h1 : 1 ≤ nw) (hn : nw ≤ x.length) (hB : ∀ v ∈ x, |v| ≤ B)
    (N j : ℕ) : meanTone x N nw j ≤ nw * B ^ 2 := by
  have hk := windowCount_pos h1 hn
  have hE := bellEnergy_pos h1
  have hkr : (0 : ℝ) < windowCount x.length nw := by exact_mod_cast hk
  have hB0 : 0 ≤ B := by
    have hx : x ≠ [] := by rintro rfl; simp at hn; omega
    exact (abs_nonneg _).trans (hB _ (List.head_mem hx))
  unfold meanTone
  rw [div_le_iff₀ (by positivity)]
  have hone : ∀ ii, tonePower (tapered x nw ii) (min nw N) N j ≤ nw * B ^ 2 * bellEnergy nw := by
    intro ii
    refine (tonePower_le _ _ _ _).trans ?_
    have hsub : ∑ t ∈ range (min nw N), |tapered x nw ii t| ≤
        B * ∑ t ∈ range nw, (1 - Real.cos (2 * Real.pi * (t + 1) / (nw + 1))) / 2 := by
      rw [Finset.mul_sum]
      have hnn : ∀ t : ℕ, 0 ≤ (1 - Real.cos (2 * Real.pi * (t + 1) / (nw + 1))) / 2 := by
        intro t
        linarith [Real.cos_le_one (2 * Real.pi * ((t : ℝ) + 1) / (nw + 1))]
      refine (Finset.sum_le_sum (g := fun t : ℕ => B * ((1 - Real.cos (2 * Real.pi * (t + 1) / (nw + 1))) / 2)) ?_).trans
        (Finset.sum_le_sum_of_subset_of_nonneg ?_ ?_)
      · intro t _
        unfold tapered
        rw [abs_mul, abs_of_nonneg (hnn t), mul_comm]
        apply mul_le_mul_of_nonneg_right _ (hnn t)
        by_cases h : ii * (nw - nw / 2) + t < x.length
        · rw [getD_in h]; exact hB _ (List.getElem_mem _)
        · rw [getD_beyond (by omega)]; simpa using hB0
      · intro t ht
        simp only [mem_range] at ht ⊢
        omega
      · intro t _ _
        exact mul_nonneg hB0 (hnn t)
    have hcs := sq_sum_le_card_mul_sum_sq (s := range nw)
      (f := fun t : ℕ => (1 - Real.cos (2 * Real.pi * (t + 1) / (nw + 1))) / 2)
    rw [card_range] at hcs
    have h0 : 0 ≤ ∑ t ∈ range (min nw N), |tapered x nw ii t| := Finset.sum_nonneg fun _ _ => abs_nonneg _
    refine (pow_le_pow_left₀ h0 hsub 2).trans ?_
    rw [mul_pow]
    have := mul_le_mul_of_nonneg_left hcs (sq_nonneg B)
    unfold bellEnergy
    nlinarith
  refine (Finset.sum_le_sum fun ii _ => hone ii).trans ?_
  rw [Finset.sum_const, card_range, nsmul_eq_mul]
  nlinarith

/-- **C151.**  With `N` the length of the transform and `W` the length of the windows (given, or
`min (len x) 256` and a quarter of `N`), the function returns exactly if `1 ≤ W ≤ len x` and `1 ≤ N`; it
then returns `N / 2` numbers, number `j` being the mean over the windows of the squared modulus of
frequency `j`, divided by the energy of the bell; none is negative and none exceeds `W` times the
largest square. -/
theorem C151_values (x : List ℝ) (nfft nw : Option ℕ) :
    let N := nfft.getD (min x.length 256)
    let W := nw.getD (N / 4)
    ((∃ y, powerSpectrum x nfft nw = .ok y) ↔ 1 ≤ W ∧ W ≤ x.length ∧ 1 ≤ N) ∧
    (x.length < W → powerSpectrum x nfft nw = .error .indexError) ∧
    (W = 0 → powerSpectrum x nfft nw = .error .zeroDivision) ∧
    (1 ≤ W → W ≤ x.length → N = 0 → powerSpectrum x nfft nw = .error .valueError) ∧
    ∀ y, powerSpectrum x nfft nw = .ok y → y.length = N / 2 ∧
      (∀ j (hj : j < y.length), y[j] =
        (∑ ii ∈ range (windowCount x.length W), tonePower (tapered x W ii) (min W N) N j) /
          (windowCount x.length W * bellEnergy W)) ∧
      (∀ v ∈ y, 0 ≤ v) ∧ ∀ B, (∀ v ∈ x, |v| ≤ B) → ∀ v ∈ y, v ≤ W * B ^ 2 := by
  intro N W
  have e1 : x.length < W → powerSpectrum x nfft nw = .error .indexError := by
    intro h
    unfold powerSpectrum
    exact if_pos h
  have e2 : W = 0 → powerSpectrum x nfft nw = .error .zeroDivision := by
    intro h
    unfold powerSpectrum
    have h1 : ¬ x.length < nw.getD (nfft.getD (min x.length 256) / 4) := by
      change ¬ x.length < W
      omega
    have h2 : nw.getD (nfft.getD (min x.length 256) / 4) - nw.getD (nfft.getD (min x.length 256) / 4) / 2 = 0 := by
      change W - W / 2 = 0
      omega
    simp only [if_neg h1, if_pos h2]
  have e3 : 1 ≤ W → W ≤ x.length → N = 0 → powerSpectrum x nfft nw = .error .valueError := by
    intro p q h
    unfold powerSpectrum
    have h1 : ¬ x.length < nw.getD (nfft.getD (min x.length 256) / 4) := by
      change ¬ x.length < W
      omega
    have h2 : ¬ nw.getD (nfft.getD (min x.length 256) / 4) -
        nw.getD (nfft.getD (min x.length 256) / 4) / 2 = 0 := by
      change ¬ W - W / 2 = 0
      omega
    have h3 : nfft.getD (min x.length 256) = 0 := h
    simp only [if_neg h1, if_neg h2, if_pos h3]
  have e4 : ∀ y, powerSpectrum x nfft nw = .ok y → 1 ≤ W ∧ W ≤ x.length ∧ 1 ≤ N := by
    intro y hy
    have a : 1 ≤ W := by
      by_contra hc
      rw [e2 (by omega)] at hy; cases hy
    have b : W ≤ x.length := by
      by_contra hc
      rw [e1 (by omega)] at hy; cases hy
    refine ⟨a, b, ?_⟩
    by_contra hc
    rw [e3 a b (by omega)] at hy; cases hy
  refine ⟨⟨fun ⟨y, hy⟩ => e4 y hy, fun ⟨a, b, c⟩ => ⟨_, powerSpectrum_ok rfl rfl a b c⟩⟩, e1, e2, e3, ?_⟩
  intro y hy
  obtain ⟨a, b, c⟩ := e4 y hy
  rw [powerSpectrum_ok (N := N) (W := W) rfl rfl a b c] at hy
  cases hy
  refine ⟨by simp, ?_, ?_, ?_⟩
  · intro j hj
    simp [meanTone]
  · intro v hv
    obtain ⟨j, _, rfl⟩ := List.mem_map.1 hv
    exact meanTone_nonneg _ _ _ _
  · intro B hB v hv
    obtain ⟨j, _, rfl⟩ := List.mem_map.1 hv
    exact meanTone_le a b hB _ _

/-- **C151.**  Multiplying the column by a number multiplies every returned number by its square (and
changes nothing about the exceptions). -/
theorem C151_scale (x : List ℝ) (a : ℝ) (nfft nw : Option ℕ) :
    powerSpectrum (x.map (a * ·)) nfft nw = (powerSpectrum x nfft nw).map (List.map (a ^ 2 * ·)) := by
  set N := nfft.getD (min x.length 256) with hN
  set W := nw.getD (N / 4) with hW
  have hN' : nfft.getD (min (x.map (a * ·)).length 256) = N := by rw [List.length_map]
  by_cases h : 1 ≤ W ∧ W ≤ x.length ∧ 1 ≤ N
  · obtain ⟨p, q, r⟩ := h
    rw [powerSpectrum_ok hN' hW.symm p (by rwa [List.length_map]) r, powerSpectrum_ok hN.symm hW.symm p q r]
    simp only [Except.map, List.map_map]
    congr 1
    apply List.map_congr_left
    intro j _
    simp only [Function.comp, meanTone, List.length_map]
    rw [← mul_div_assoc, Finset.mul_sum]
    congr 1
    apply Finset.sum_congr rfl
    intro ii _
    have hg : ∀ t, (x.map (a * ·)).getD t 0 = a * x.getD t 0 := by
      intro t
      rw [List.getD_eq_getElem?_getD, List.getD_eq_getElem?_getD, List.getElem?_map]
      cases x[t]? <;> simp
    unfold tonePower tapered
    simp only [hg]
    rw [mul_add, ← mul_pow, ← mul_pow, Finset.mul_sum, Finset.mul_sum]
    congr 2 <;> exact Finset.sum_congr rfl fun _ _ => by ring
  · unfold powerSpectrum
    simp only [List.length_map]
    simp only [← hN, ← hW]
    by_cases c1 : x.length < W
    · rw [if_pos c1, if_pos c1]; rfl
    · rw [if_neg c1, if_neg c1]
      by_cases c2 : W - W / 2 = 0
      · rw [if_pos c2, if_pos c2]; rfl
      · rw [if_neg c2, if_neg c2]
        have c3 : N = 0 := by omega
        rw [if_pos c3, if_pos c3]; rfl

/-- **C151.**  The first number of `power_spectral_density_using_hanning_window(x, len(x))` is the estimate that the
Geweke diagnostic uses, for every column of at least four rows. -/
theorem C151_geweke {x : List ℝ} (h4 : 4 ≤ x.length) :
    ∃ y s, powerSpectrum x (some x.length) none = .ok y ∧ y.head? = some s ∧
      spectrumAtZero (fun nw i => XR.fin (hanning nw i)) (x.map XR.fin) = .ok (XR.fin s) := by
  refine ⟨_, meanTone x x.length (x.length / 4) 0, powerSpectrum_ok rfl rfl
    (by simp only [Option.getD_some, Option.getD_none]; omega)
    (by simp only [Option.getD_some, Option.getD_none]; omega) (by simp only [Option.getD_some]; omega), ?_, ?_⟩
  · obtain ⟨m, hm⟩ : ∃ m, x.length / 2 = m + 1 := ⟨x.length / 2 - 1, by omega⟩
    simp [hm, List.range_succ_eq_map]
  · rw [spectrum_fin h4]
    congr 2
    unfold spectrumReal meanTone windowCount bellEnergy tonePower
    rw [mul_one_div, range_map_total, range_map_total]
    have hmin : min (x.length / 4) x.length = x.length / 4 := by omega
    rw [hmin]
    congr 1
    · apply Finset.sum_congr rfl
      intro ii _
      rw [range_map_total]
      have hh : ∀ i, hanning (x.length / 4) i =
          (1 - Real.cos (2 * Real.pi * (i + 1) / ((x.length / 4 : ℕ) + 1))) / 2 := by
        intro i; unfold hanning; ring
      simp [tapered, hh]
    · congr 1
      apply Finset.sum_congr rfl
      intro i _
      unfold hanning
      ring

/-! ### The power that the returned numbers account for -/

theorem tonePower_total {N L : ℕ} (hN : 0 < N) (hL : L ≤ N) (a : ℕ → ℝ) :
    ∑ j ∈ range N, tonePower a L N j = N * ∑ t ∈ range L, a t ^ 2 := by
  have e : ∀ j, tonePower a L N j = ∑ t ∈ range L, ∑ s ∈ range L,
      a t * a s * Real.cos (2 * Real.pi * j * ((t : ℤ) - s : ℤ) / N) := by
    intro j
    unfold tonePower
    rw [pow_two, pow_two, Finset.sum_mul_sum, Finset.sum_mul_sum, ← Finset.sum_add_distrib]
    apply Finset.sum_congr rfl
    intro t _
    rw [← Finset.sum_add_distrib]
    apply Finset.sum_congr rfl
    intro s _
    have : 2 * Real.pi * j * (((t : ℤ) - s : ℤ) : ℝ) / N =
        2 * Real.pi * j * t / N - 2 * Real.pi * j * s / N := by push_cast; ring
    rw [this, Real.cos_sub]
    ring
  simp only [e]
  rw [Finset.sum_comm, Finset.mul_sum]
  apply Finset.sum_congr rfl
  intro t ht
  rw [Finset.sum_comm]
  have e2 : ∀ s ∈ range L, ∑ j ∈ range N, a t * a s * Real.cos (2 * Real.pi * j * ((t : ℤ) - s : ℤ) / N) =
      if s = t then N * a t ^ 2 else 0 := by
    intro s hs
    rw [← Finset.mul_sum, (trig_sum hN _).1]
    have hd : ((N : ℤ) ∣ (t : ℤ) - s) ↔ s = t := by
      constructor
      · intro h
        have := Int.eq_zero_of_abs_lt_dvd h (by
          rw [mem_range] at ht hs
          rw [abs_lt]; omega)
        omega
      · rintro rfl; simp
    by_cases h : s = t
    · subst h; simp; ring
    · rw [if_neg (fun c => h (hd.1 c)), if_neg h, mul_zero]
  rw [Finset.sum_congr rfl e2, Finset.sum_ite_eq' (range L) t]
  simp [ht]

theorem tonePower_mirror {N j : ℕ} (hN : 0 < N) (hj : j ≤ N) (a : ℕ → ℝ) (L : ℕ) :
    tonePower a L N (N - j) = tonePower a L N j := by
  have hN0 : (N : ℝ) ≠ 0 := by exact_mod_cast hN.ne'
  have e : ∀ t : ℕ, 2 * Real.pi * ((N - j : ℕ) : ℝ) * t / N = t * (2 * Real.pi) - 2 * Real.pi * j * t / N := by
    intro t
    rw [Nat.cast_sub hj]
    field_simp
  unfold tonePower
  simp only [e, Real.cos_nat_mul_two_pi_sub, Real.sin_nat_mul_two_pi_sub, mul_neg, Finset.sum_neg_distrib, neg_sq]

theorem sum_mirror {f : ℕ → ℝ} {N : ℕ} (hN : 2 ≤ N) (hf : ∀ j, j ≤ N → f (N - j) = f j) :
    ∑ j ∈ range N, f j = f 0 + 2 * ∑ j ∈ range (N / 2 - 1), f (j + 1) +
      (if N % 2 = 0 then 1 else 2) * f (N / 2) := by
  obtain ⟨m, hm⟩ : ∃ m, N / 2 = m + 1 := ⟨N / 2 - 1, by omega⟩
  rw [hm, Nat.add_sub_cancel]
  have hrev : ∑ j ∈ range m, f (N - m + j) = ∑ j ∈ range m, f (j + 1) := by
    rw [← Finset.sum_range_reflect]
    apply Finset.sum_congr rfl
    intro j hj
    rw [mem_range] at hj
    rw [← hf (j + 1) (by omega)]
    congr 1
    omega
  have hsplit : ∑ j ∈ range N, f j = ∑ j ∈ range (N - m), f j + ∑ j ∈ range m, f (N - m + j) := by
    rw [← Finset.sum_range_add, Nat.sub_add_cancel (by omega)]
  rw [hsplit, hrev]
  rcases Nat.mod_two_eq_zero_or_one N with h | h
  · have : N - m = m + 1 + 1 := by omega
    rw [this, Finset.sum_range_succ, Finset.sum_range_succ', if_pos h]
    ring
  · have h3 : N - m = m + 1 + 1 + 1 := by omega
    have h4 : f (m + 1 + 1) = f (m + 1) := by
      rw [← hf (m + 1) (by omega)]
      congr 1
      omega
    rw [h3, Finset.sum_range_succ, Finset.sum_range_succ, Finset.sum_range_succ', if_neg (by omega), h4]
    ring

/-- **C151.**  What would be wanted of a one-sided spectrum: the first number plus twice the others is
`N` times the mean energy of the tapered windows.  That is false (`C151_power_refuted`): the number of
the highest frequency `N / 2` is not returned.  Its share, counted once for an even `N` and twice for
an odd one, is exactly what is missing, if no window is longer than the transform. -/
theorem C151_power_partial {x : List ℝ} {nfft nw : Option ℕ} {y : List ℝ}
    (h : powerSpectrum x nfft nw = .ok y)
    (hN2 : 2 ≤ nfft.getD (min x.length 256))
    (hWN : nw.getD (nfft.getD (min x.length 256) / 4) ≤ nfft.getD (min x.length 256)) :
    let N := nfft.getD (min x.length 256)
    let W := nw.getD (N / 4)
    let K := windowCount x.length W
    y.headD 0 + 2 * y.tail.sum +
      (if N % 2 = 0 then 1 else 2) *
        ((∑ ii ∈ range K, tonePower (tapered x W ii) W N (N / 2)) / (K * bellEnergy W)) =
      N * ((∑ ii ∈ range K, ∑ t ∈ range W, tapered x W ii t ^ 2) / (K * bellEnergy W)) := by
  intro N W K
  obtain ⟨a, b, c⟩ := (C151_values x nfft nw).1.1 ⟨y, h⟩
  rw [powerSpectrum_ok (N := N) (W := W) rfl rfl a b c] at h
  cases h
  have hmin : min W N = W := min_eq_left hWN
  have hmir : ∀ j, j ≤ N → meanTone x N W (N - j) = meanTone x N W j := by
    intro j hj
    unfold meanTone
    simp only [tonePower_mirror (show 0 < N from c) hj]
  have hsum := sum_mirror (show 2 ≤ N from hN2) hmir
  have htot : ∑ j ∈ range N, meanTone x N W j =
      N * ((∑ ii ∈ range K, ∑ t ∈ range W, tapered x W ii t ^ 2) / (K * bellEnergy W)) := by
    unfold meanTone
    rw [← Finset.sum_div, Finset.sum_comm, hmin]
    simp only [tonePower_total (show 0 < N from c) (show W ≤ N from hWN)]
    rw [← Finset.mul_sum, mul_div_assoc]
  rw [← htot, hsum]
  obtain ⟨m, hm⟩ : ∃ m, N / 2 = m + 1 := ⟨N / 2 - 1, by omega⟩
  have hlast : (∑ ii ∈ range K, tonePower (tapered x W ii) W N (N / 2)) / (K * bellEnergy W) =
      meanTone x N W (N / 2) := by
    unfold meanTone
    rw [hmin]
  rw [hlast, hm, List.range_succ_eq_map]
  simp only [List.map_cons, List.headD_cons, List.tail_cons, List.map_map, Nat.add_sub_cancel]
  congr 3

theorem C151_power_refuted : powerSpectrum [1, -1] (some 2) (some 2) = .ok [0] ∧
    (∑ t ∈ range 2, tapered [1, -1] 2 0 t ^ 2) ≠ 0 := by
  have hc1 : Real.cos (2 * Real.pi * (0 + 1) / (2 + 1)) = -1 / 2 := by
    have : 2 * Real.pi * (0 + 1) / (2 + 1) = Real.pi - Real.pi / 3 := by ring
    rw [this, Real.cos_pi_sub, Real.cos_pi_div_three]; norm_num
  have hc2 : Real.cos (2 * Real.pi * (1 + 1) / (2 + 1)) = -1 / 2 := by
    have : 2 * Real.pi * (1 + 1) / (2 + 1) = Real.pi / 3 + Real.pi := by ring
    rw [this, Real.cos_add_pi, Real.cos_pi_div_three]; norm_num
  constructor
  · rw [powerSpectrum_ok (N := 2) (W := 2) rfl rfl (by norm_num) (by simp) (by norm_num)]
    have e : Real.cos (2 * Real.pi / (2 + 1)) = Real.cos (2 * Real.pi * (1 + 1) / (2 + 1)) := by
      rw [hc2, ← hc1]; norm_num
    simp [meanTone, windowCount, tonePower, tapered, Finset.sum_range_succ, e]
  · simp only [tapered, Finset.sum_range_succ, Finset.sum_range_zero, Nat.cast_zero, Nat.cast_one, Nat.cast_ofNat,
      hc1, hc2]
    norm_num

/-- a column of three rows has no spectrum with the default arguments: a `ZeroDivisionError` -/
example : powerSpectrum [1, 2, 3] none none = .error .zeroDivision :=
  (C151_values [1, 2, 3] none none).2.2.1 (by simp)

/-- windows longer than the column: the padding of the code raises `IndexError` -/
example : powerSpectrum [1, 2, 3] none (some 4) = .error .indexError :=
  (C151_values [1, 2, 3] none (some 4)).2.1 (by simp)

/-- eight rows: four numbers are returned, the column being long enough for `C151_geweke`, and for
`C151_power_partial` as well -/
example : ∃ y, powerSpectrum [1, 2, 3, 4, 3, 2, 1, 0] none none = .ok y ∧ y.length = 4 := by
  obtain ⟨y, hy⟩ := (C151_values [1, 2, 3, 4, 3, 2, 1, 0] none none).1.2 (by simp)
  exact ⟨y, hy, by rw [((C151_values _ none none).2.2.2.2 y hy).1]; simp⟩

example : 2 ≤ (none : Option ℕ).getD (min [1, 2, 3, 4, 3, 2, 1, (0 : ℝ)].length 256) ∧
    (none : Option ℕ).getD ((none : Option ℕ).getD (min [1, 2, 3, 4, 3, 2, 1, (0 : ℝ)].length 256) / 4) ≤
      (none : Option ℕ).getD (min [1, 2, 3, 4, 3, 2, 1, (0 : ℝ)].length 256) := by simp

end Verif
