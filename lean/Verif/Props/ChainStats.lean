import Verif.Model.ChainStats
import Verif.Lemmas.XR
import Verif.Lemmas.Basic
import Verif.Spec.Toy
import Mathlib.Tactic.Ring
import Mathlib.Tactic.NormNum
import Mathlib.Tactic.Linarith
import Mathlib.Tactic.FieldSimp
import Mathlib.Tactic.Positivity
import Mathlib.Tactic.GCongr
import Mathlib.Tactic.FinCases
import Mathlib.Tactic.IntervalCases
import Mathlib.Tactic.LinearCombination

/-! # C53, C54, C67, C68: batch means and the Geweke diagnostic -/

namespace Verif
set_option linter.unusedSectionVars false

/-! ### C54: batch means -/

section
variable {F : Type} [PyFloat F] {p : ℕ}

theorem slices_flatten {α : Type} (l : List α) (b nb : ℕ) (h : nb * b ≤ l.length) :
    ((List.range nb).map fun ii => pySlice l (ii * b) ((ii + 1) * b)).flatten = l.take (nb * b) := by
  induction nb with
  | zero => simp
  | succ k ih =>
    have hk : k * b ≤ l.length := by
      have : (k + 1) * b = k * b + b := by ring
      omega
    rw [List.range_succ, List.map_append, List.flatten_append, ih hk]
    simp only [List.map_cons, List.map_nil, List.flatten_cons, List.flatten_nil, List.append_nil,
      pySlice]
    have e : (l.take ((k + 1) * b)).take (k * b) = l.take (k * b) := by
      rw [List.take_take]
      congr 1
      have : (k + 1) * b = k * b + b := by ring
      omega
    rw [← e, List.take_append_drop]

theorem batchMeanStd_pos {chain : List (Vec F p)} {b : Option ℤ} {bn : ℕ} (hb : 0 < bn)
    (hbs : batchSize chain.length b = bn) :
    batchMeanStd chain b =
      if chain.length / bn < 2 then .error (.sysExit "too few batches")
      else .ok fun j => PyFloat.sqrt
        (lsum (((List.range (chain.length / bn)).map fun ii =>
            pySlice chain (ii * bn) ((ii + 1) * bn)).map fun l =>
          (npMean (l.map fun r => r j) - npMean (chain.map fun r => r j)) *
          (npMean (l.map fun r => r j) - npMean (chain.map fun r => r j))) /
          lit (((chain.length / bn : ℕ) : ℚ) - 1) * lit bn) := by
  have hi : batchInds chain.length (bn : ℤ) =
      .ok ((List.range (chain.length / bn + 1)).map (· * bn)) := by
    unfold batchInds
    rw [if_neg (by omega), if_neg (by omega)]
    simp
  unfold batchMeanStd
  simp only [hbs]
  rw [hi, ok_bind]
  simp only [List.length_map, List.length_range, Nat.add_sub_cancel]
  by_cases h2 : chain.length / bn < 2
  · rw [if_pos h2, if_pos h2]
  · rw [if_neg h2, if_neg h2]
    congr 1
    funext j
    rw [List.map_map, List.map_map]
    have : ∀ ii ∈ List.range (chain.length / bn),
        ((fun r : Vec F p => (r j - npMean (chain.map fun r => r j)) *
          (r j - npMean (chain.map fun r => r j))) ∘ fun ii => fun j =>
          npMean ((pySlice chain
            (((List.range (chain.length / bn + 1)).map (· * bn)).getD ii 0)
            (((List.range (chain.length / bn + 1)).map (· * bn)).getD (ii + 1) 0)).map
              fun r => r j)) ii =
        ((fun l : List (Vec F p) =>
          (npMean (l.map fun r => r j) - npMean (chain.map fun r => r j)) *
          (npMean (l.map fun r => r j) - npMean (chain.map fun r => r j))) ∘ fun ii =>
            pySlice chain (ii * bn) ((ii + 1) * bn)) ii := by
      intro ii hii
      have h1 : ii < chain.length / bn := List.mem_range.1 hii
      have g1 : ((List.range (chain.length / bn + 1)).map (· * bn)).getD ii 0 = ii * bn := by
        rw [List.getD_eq_getElem?_getD, List.getElem?_map, List.getElem?_range (by omega)]
        rfl
      have g2 : ((List.range (chain.length / bn + 1)).map (· * bn)).getD (ii + 1) 0 =
          (ii + 1) * bn := by
        rw [List.getD_eq_getElem?_getD, List.getElem?_map, List.getElem?_range (by omega)]
        rfl
      simp only [Function.comp, g1, g2]
    rw [List.map_congr_left this]
    rfl

/-- **C54, batches.** A successful call has a positive batch size; the chain is the concatenation
of at least two batches of exactly that size and of a rest shorter than one batch; the value is
the formula for these batches and the mean of the whole chain. -/
theorem C54_batches {chain : List (Vec F p)} {b : Option ℤ} {s : Vec F p}
    (h : batchMeanStd chain b = .ok s) :
    ∃ (bn : ℕ) (batches : List (List (Vec F p))) (rest : List (Vec F p)),
      0 < bn ∧ (b = some (bn : ℤ) ∨ b = none ∧ bn = max 10 (chain.length / 20)) ∧
      chain = batches.flatten ++ rest ∧ (∀ l ∈ batches, l.length = bn) ∧ rest.length < bn ∧
      2 ≤ batches.length ∧
      ∀ j, s j = PyFloat.sqrt
        (lsum (batches.map fun l =>
          (npMean (l.map fun r => r j) - npMean (chain.map fun r => r j)) *
          (npMean (l.map fun r => r j) - npMean (chain.map fun r => r j))) /
          lit ((batches.length : ℚ) - 1) * lit bn) := by
  have hpos : 0 < batchSize chain.length b := by
    by_contra hc
    unfold batchMeanStd batchInds at h
    simp only at h
    by_cases h0 : batchSize chain.length b = 0
    · rw [if_pos h0] at h; cases h
    · rw [if_neg h0, if_pos (by omega), ok_bind, if_pos (by simp)] at h
      cases h
  obtain ⟨bn, hbn⟩ := Int.eq_ofNat_of_zero_le hpos.le
  have hbn0 : 0 < bn := by omega
  rw [batchMeanStd_pos hbn0 hbn] at h
  by_cases h2 : chain.length / bn < 2
  · rw [if_pos h2] at h; cases h
  · rw [if_neg h2] at h
    cases h
    have hle : chain.length / bn * bn ≤ chain.length := Nat.div_mul_le_self _ _
    refine ⟨bn, (List.range (chain.length / bn)).map fun ii =>
      pySlice chain (ii * bn) ((ii + 1) * bn), chain.drop (chain.length / bn * bn), hbn0, ?_, ?_,
      ?_, ?_, ?_, fun j => ?_⟩
    · cases b with
      | none =>
        right
        unfold batchSize at hbn
        simp only [Option.getD_none] at hbn
        exact ⟨rfl, by omega⟩
      | some v =>
        left
        unfold batchSize at hbn
        simp only [Option.getD_some] at hbn
        rw [hbn]
    · rw [slices_flatten _ _ _ hle, List.take_append_drop]
    · intro l hl
      obtain ⟨ii, hii, rfl⟩ := List.mem_map.1 hl
      have h1 : ii + 1 ≤ chain.length / bn := List.mem_range.1 hii
      have h3 : (ii + 1) * bn ≤ chain.length := (Nat.mul_le_mul_right bn h1).trans hle
      unfold pySlice
      rw [List.length_drop, List.length_take, min_eq_left h3]
      have : (ii + 1) * bn = ii * bn + bn := by ring
      omega
    · rw [List.length_drop]
      have := Nat.div_add_mod chain.length bn
      have := Nat.mod_lt chain.length hbn0
      have e : bn * (chain.length / bn) = chain.length / bn * bn := mul_comm _ _
      omega
    · simp; omega
    · simp

/-- **C54, refusal.** With a positive batch size the call succeeds exactly when the chain holds
two batches; otherwise the program exits with the message. -/
theorem C54_refused {chain : List (Vec F p)} {b : Option ℤ} {bn : ℕ} (hb : 0 < bn)
    (hbs : b = some (bn : ℤ) ∨ b = none ∧ bn = max 10 (chain.length / 20)) :
    ((∃ s, batchMeanStd chain b = .ok s) ↔ 2 * bn ≤ chain.length) ∧
    (chain.length < 2 * bn → batchMeanStd chain b = .error (.sysExit "too few batches")) := by
  have hbs' : batchSize chain.length b = bn := by
    unfold batchSize
    rcases hbs with rfl | ⟨rfl, rfl⟩
    · rfl
    · simp
  rw [batchMeanStd_pos hb hbs']
  have key : chain.length / bn < 2 ↔ chain.length < 2 * bn := by
    rw [Nat.div_lt_iff_lt_mul hb]
  constructor
  · constructor
    · rintro ⟨s, hs⟩
      by_contra hc
      rw [if_pos (key.2 (by omega))] at hs
      cases hs
    · intro h
      rw [if_neg (by rw [key]; omega)]
      exact ⟨_, rfl⟩
  · intro h
    rw [if_pos (key.2 h)]

/-- a chain of seven rows with batch size three: two batches and one row left out -/
example : ∃ s, batchMeanStd (F := ℚ) (p := 1) ([1, 2, 3, 4, 5, 6, 70].map fun a => fun _ => a) (some 3) = .ok s :=
  (C54_refused (bn := 3) (by decide) (.inl rfl)).1.2 (by decide)

end

/-! ### C53: windows of the Geweke diagnostic -/

section
variable {K : Type} [Field K] [LinearOrder K] [IsStrictOrderedRing K] [FloorRing K]

/-- **C53, full statement:** the windows never overlap and fractions with disjoint windows are
accepted.  **Proved here:** for fractions with `a + b ≤ 1` the windows are the first `⌊a n⌋` and the
last `⌊b n⌋` rows and have no row in common.  Both clauses fail in general, see
`C53_overlap_refuted` and `C53_accept_refuted`. -/
theorem C53_disjoint_partial {a b : K} (ha : 0 ≤ a) (hb : 0 ≤ b) (hab : a + b ≤ 1) {nsimu : ℕ}
    {w : ℤ × ℤ} (h : gewekeWindows a b nsimu = .ok w) :
    (∀ i : ℕ, i ∈ (gewekeRows nsimu w).1 ↔ (i : ℤ) < ⌊a * nsimu⌋) ∧
    (∀ i : ℕ, i ∈ (gewekeRows nsimu w).2 ↔ i < nsimu ∧ (nsimu : ℤ) - ⌊b * nsimu⌋ ≤ i) ∧
    (gewekeRows nsimu w).1.Disjoint (gewekeRows nsimu w).2 := by
  unfold gewekeWindows at h
  simp only at h
  split at h
  · cases h
  · cases h
    have hn0 : (0 : K) ≤ nsimu := Nat.cast_nonneg _
    have hA : 0 ≤ ⌊a * nsimu⌋ := Int.floor_nonneg.2 (mul_nonneg ha hn0)
    have hB : 0 ≤ ⌊b * nsimu⌋ := Int.floor_nonneg.2 (mul_nonneg hb hn0)
    have hsum : ⌊a * nsimu⌋ + ⌊b * nsimu⌋ ≤ nsimu := by
      have h1 := Int.floor_le (a * (nsimu : K))
      have h2 := Int.floor_le (b * (nsimu : K))
      have h3 : a * nsimu + b * nsimu ≤ nsimu := by
        have : (a + b) * nsimu ≤ 1 * nsimu := mul_le_mul_of_nonneg_right hab hn0
        linarith
      have h4 : ((⌊a * (nsimu : K)⌋ + ⌊b * (nsimu : K)⌋ : ℤ) : K) ≤ ((nsimu : ℤ) : K) := by
        push_cast
        linarith
      exact_mod_cast h4
    have m1 : ∀ i : ℕ, i ∈ (gewekeRows nsimu (⌊a * (nsimu : K)⌋, (nsimu : ℤ) - ⌊b * (nsimu : K)⌋)).1 ↔
        (i : ℤ) < ⌊a * (nsimu : K)⌋ := by
      intro i
      unfold gewekeRows sliceBound
      simp only [List.mem_range]
      rw [if_pos hA]
      omega
    have m2 : ∀ i : ℕ, i ∈ (gewekeRows nsimu (⌊a * (nsimu : K)⌋, (nsimu : ℤ) - ⌊b * (nsimu : K)⌋)).2 ↔
        i < nsimu ∧ (nsimu : ℤ) - ⌊b * (nsimu : K)⌋ ≤ i := by
      intro i
      unfold gewekeRows sliceBound
      simp only
      rw [if_pos (by omega)]
      rw [List.mem_iff_getElem?]
      simp only [List.getElem?_drop]
      constructor
      · rintro ⟨j, hj⟩
        have := List.getElem?_eq_some_iff.1 hj
        obtain ⟨hlt, he⟩ := this
        simp only [List.length_range] at hlt
        simp only [List.getElem_range] at he
        omega
      · rintro ⟨h1, h2⟩
        refine ⟨i - min ((nsimu : ℤ) - ⌊b * (nsimu : K)⌋).toNat nsimu, ?_⟩
        rw [List.getElem?_range (by omega)]
        congr 1
        omega
    refine ⟨m1, m2, fun i h1 h2 => ?_⟩
    have := (m1 i).1 h1
    have := ((m2 i).1 h2).2
    omega

/-- **C53, acceptance.** Fractions are accepted exactly when the first window is shorter than the
second. -/
theorem C53_accepted {a b : K} {nsimu : ℕ} :
    (∃ w, gewekeWindows a b nsimu = .ok w) ↔ ⌊a * nsimu⌋ < ⌊b * nsimu⌋ := by
  unfold gewekeWindows
  simp only
  split
  · rename_i h
    constructor
    · rintro ⟨w, hw⟩; cases hw
    · intro h'; omega
  · rename_i h
    exact ⟨fun _ => by omega, fun _ => ⟨_, rfl⟩⟩

/-- **C53 is false: accepted windows can overlap.** With the first 60% and the last 70% of ten
rows, rows 3, 4 and 5 are in both windows. -/
theorem C53_overlap_refuted : ∃ (a b : ℚ) (nsimu : ℕ) (w : ℤ × ℤ), 0 < a ∧ a < 1 ∧ 0 < b ∧ b < 1 ∧
    gewekeWindows a b nsimu = .ok w ∧ ¬ (gewekeRows nsimu w).1.Disjoint (gewekeRows nsimu w).2 := by
  refine ⟨6 / 10, 7 / 10, 10, (6, 3), by norm_num, by norm_num, by norm_num, by norm_num, ?_, ?_⟩
  · decide +kernel
  · intro h
    exact h (a := 4) (by decide +kernel) (by decide +kernel)

/-- **C53 is false: disjoint windows can be refused.** The two halves of a chain are refused, for
every chain. -/
theorem C53_accept_refuted (nsimu : ℕ) :
    gewekeWindows (1 / 2 : ℚ) (1 / 2 : ℚ) nsimu = .error (.sysExit "na + nb > nsimu") ∧
    ⌊(1 / 2 : ℚ) * nsimu⌋ ≤ nsimu - ⌊(1 / 2 : ℚ) * nsimu⌋ := by
  constructor
  · unfold gewekeWindows
    simp only
    rw [if_pos (by omega)]
  · have h1 := Int.floor_le ((1 / 2 : ℚ) * nsimu)
    have : ((2 * ⌊(1 / 2 : ℚ) * nsimu⌋ : ℤ) : ℚ) ≤ ((nsimu : ℤ) : ℚ) := by
      push_cast
      linarith
    have h2 : 2 * ⌊(1 / 2 : ℚ) * nsimu⌋ ≤ (nsimu : ℤ) := by exact_mod_cast this
    omega

/-- the default fractions for a chain of fifty rows -/
example : gewekeWindows (1 / 10 : ℚ) (1 / 2 : ℚ) 50 = .ok (5, 25) := by decide +kernel

end

/-! ### C67: statistics for every chain -/

section
variable {F : Type} [PyFloat F] {p : ℕ}

theorem mapM_eq_ok {α β : Type} {l : List α} {f : α → Except PyErr β} {g : α → β}
    (h : ∀ a ∈ l, f a = .ok (g a)) : l.mapM f = .ok (l.map g) := by
  induction l with
  | nil => rfl
  | cons a l ih =>
    rw [List.mapM_cons, h a (by simp), ih fun b hb => h b (List.mem_cons_of_mem _ hb)]
    rfl

/-- the sliding windows of the spectral estimate lie inside the chain -/
theorem spectrum_inside {m k i : ℕ} (hm : 4 ≤ m)
    (hk : k < (m - m / 4 / 2) / (m / 4 - m / 4 / 2)) (hi : i < m / 4) :
    k * (m / 4 - m / 4 / 2) + i < m := by
  have h1 : (k + 1) * (m / 4 - m / 4 / 2) ≤ m - m / 4 / 2 :=
    (Nat.mul_le_mul_right _ hk).trans (Nat.div_mul_le_self _ _)
  have h2 : (k + 1) * (m / 4 - m / 4 / 2) = k * (m / 4 - m / 4 / 2) + (m / 4 - m / 4 / 2) := by ring
  omega

/-- the spectral estimate of a window with at least four rows -/
theorem spectrumAtZero_ok (hann : ℕ → ℕ → F) {x : List F} {m : ℕ} (hm : x.length = m) (h4 : 4 ≤ m) :
    spectrumAtZero hann x = .ok
      (lsum ((List.range ((m - m / 4 / 2) / (m / 4 - m / 4 / 2))).map fun ii =>
        lsum ((List.range (m / 4)).map fun i =>
          hann (m / 4) i * x.getD (ii * (m / 4 - m / 4 / 2) + i) (lit 0)) *
        lsum ((List.range (m / 4)).map fun i =>
          hann (m / 4) i * x.getD (ii * (m / 4 - m / 4 / 2) + i) (lit 0))) *
      (lit 1 / (lit (((m - m / 4 / 2) / (m / 4 - m / 4 / 2) : ℕ) : ℚ) *
        lsum ((List.range (m / 4)).map fun i => hann (m / 4) i * hann (m / 4) i)))) := by
  have hws : (List.range ((m - m / 4 / 2) / (m / 4 - m / 4 / 2))).mapM (fun ii =>
      (List.range (m / 4)).mapM fun i =>
        (pyGet x (ii * (m / 4 - m / 4 / 2) + i)).map fun v => hann (m / 4) i * v) =
      .ok ((List.range ((m - m / 4 / 2) / (m / 4 - m / 4 / 2))).map fun ii =>
        (List.range (m / 4)).map fun i =>
          hann (m / 4) i * x.getD (ii * (m / 4 - m / 4 / 2) + i) (lit 0)) := by
    apply mapM_eq_ok
    intro ii hii
    apply mapM_eq_ok
    intro i hi
    have hlt := spectrum_inside h4 (List.mem_range.1 hii) (List.mem_range.1 hi)
    rw [← hm] at hlt ⊢
    unfold pyGet
    rw [List.getElem?_eq_getElem hlt, List.getD_eq_getElem?_getD, List.getElem?_eq_getElem hlt]
    rfl
  unfold spectrumAtZero
  simp only [hm]
  rw [if_neg (by omega), hws, ok_bind, if_neg (by omega), List.map_map]
  rfl

theorem spectrumAtZero_short (hann : ℕ → ℕ → F) {x : List F} (h : x.length < 4) :
    spectrumAtZero hann x = .error .zeroDivision := by
  unfold spectrumAtZero
  simp only
  rw [if_pos (by omega)]

theorem gewekeWindows_default (n : ℕ) : gewekeWindows (1 / 10 : ℚ) (1 / 2 : ℚ) n =
    if (n / 10 : ℕ) < (n / 2 : ℕ) then .ok ((n / 10 : ℕ), n - (n / 2 : ℕ))
    else .error (.sysExit "na + nb > nsimu") := by
  have e1 : ⌊(1 / 10 : ℚ) * n⌋ = (n / 10 : ℕ) := by
    rw [one_div_mul_eq_div]
    have := Rat.floor_intCast_div_natCast (n : ℤ) 10
    push_cast at this ⊢
    exact this
  have e2 : ⌊(1 / 2 : ℚ) * n⌋ = (n / 2 : ℕ) := by
    rw [one_div_mul_eq_div]
    have := Rat.floor_intCast_div_natCast (n : ℤ) 2
    push_cast at this ⊢
    exact this
  unfold gewekeWindows
  simp only [e1, e2]
  by_cases h : n / 10 < n / 2
  · rw [if_neg (by omega), if_pos h]
  · rw [if_pos (by omega), if_neg h]

/-- **C67, full statement:** `chainstats` returns statistics for every chain with at least two
rows.  **Proved here:** for every chain with at least forty rows it does, provided the
autocorrelation time of its columns can be computed (which C52 shows for every non-empty column).
Shorter chains fail, see `C67_short_refuted`. -/
theorem C67_available_partial (hann : ℕ → ℕ → F) (cdf : F → F)
    (iact : List F → Except PyErr (F × ℕ)) (hi : ∀ x, x ≠ [] → ∃ r, iact x = .ok r)
    (chain : List (Vec F p)) (h : 40 ≤ chain.length) :
    ∃ s, chainstats (K := ℚ) hann cdf iact (some chain) = .ok (some s) ∧
      s.geweke.length = p ∧ s.iact.length = p := by
  obtain ⟨bm, hbm⟩ := ((C54_refused (chain := chain) (b := none)
    (bn := max 10 (chain.length / 20)) (by omega) (.inr ⟨rfl, rfl⟩)).1).2 (by omega)
  have hw := gewekeWindows_default chain.length
  rw [if_pos (by omega)] at hw
  have hg : ∀ j : Fin p, ∃ r, gewekeColumn hann cdf (chain.map fun r => r j)
      ((chain.length / 10 : ℕ), chain.length - (chain.length / 2 : ℕ)) = .ok r := by
    intro j
    have l1 : ((chain.map fun r => r j).take (sliceBound (chain.map fun r => r j).length
        ((chain.length / 10 : ℕ) : ℤ))).length = chain.length / 10 := by
      unfold sliceBound
      rw [if_pos (by omega), List.length_take, List.length_map]
      omega
    have l2 : ((chain.map fun r => r j).drop (sliceBound (chain.map fun r => r j).length
        ((chain.length : ℤ) - (chain.length / 2 : ℕ)))).length = chain.length / 2 := by
      unfold sliceBound
      rw [if_pos (by omega), List.length_drop, List.length_map]
      omega
    unfold gewekeColumn
    simp only
    rw [spectrumAtZero_ok hann l1 (by omega), ok_bind, spectrumAtZero_ok hann l2 (by omega), ok_bind]
    exact ⟨_, rfl⟩
  choose g hg using hg
  have hiact : ∀ j : Fin p, ∃ r, iact (chain.map fun r => r j) = .ok r := by
    intro j
    refine hi _ ?_
    intro hc
    have := congrArg List.length hc
    simp at this
    rw [this] at h
    simp at h
  choose t ht using hiact
  unfold chainstats geweke
  simp only
  rw [hbm, ok_bind, hw, ok_bind, mapM_eq_ok fun j _ => hg j, ok_bind, mapM_eq_ok fun j _ => ht j,
    ok_bind]
  exact ⟨_, rfl, by simp, by simp⟩

/-- **C67 is false for short chains.** With at least one parameter, no chain with fewer than forty
rows gets statistics: below twenty rows the program exits, from twenty to thirty-nine rows there
is a division by zero. -/
theorem C67_short_refuted (hann : ℕ → ℕ → F) (cdf : F → F) (iact : List F → Except PyErr (F × ℕ))
    (chain : List (Vec F (p + 1))) :
    (chain.length < 20 → chainstats (K := ℚ) hann cdf iact (some chain) =
      .error (.sysExit "too few batches")) ∧
    (20 ≤ chain.length → chain.length < 40 →
      chainstats (K := ℚ) hann cdf iact (some chain) = .error .zeroDivision) := by
  have hb := C54_refused (chain := chain) (b := none) (bn := max 10 (chain.length / 20)) (by omega)
    (.inr ⟨rfl, rfl⟩)
  constructor
  · intro h
    unfold chainstats
    simp only
    rw [hb.2 (by omega)]
    rfl
  · intro h1 h2
    obtain ⟨bm, hbm⟩ := hb.1.2 (by omega)
    have hw := gewekeWindows_default chain.length
    rw [if_pos (by omega)] at hw
    have l1 : ((chain.map fun r => r 0).take (sliceBound (chain.map fun r => r 0).length
        ((chain.length / 10 : ℕ) : ℤ))).length < 4 := by
      unfold sliceBound
      rw [if_pos (by omega), List.length_take, List.length_map]
      omega
    unfold chainstats geweke
    simp only
    rw [hbm, ok_bind, hw, ok_bind, List.finRange_succ, List.mapM_cons]
    have : gewekeColumn hann cdf (chain.map fun r => r 0)
        ((chain.length / 10 : ℕ), chain.length - (chain.length / 2 : ℕ)) = .error .zeroDivision := by
      unfold gewekeColumn
      simp only
      rw [spectrumAtZero_short hann l1]
      rfl
    rw [this]
    rfl

end

/-- forty rows of one parameter get statistics, thirty do not -/
example : (∃ s, chainstats (F := ℚ) (K := ℚ) (p := 1) (fun _ _ => 1) id (fun _ => .ok (0, 0))
      (some ((List.range 40).map fun i => fun _ => (i : ℚ))) = .ok (some s)) ∧
    chainstats (F := ℚ) (K := ℚ) (p := 1) (fun _ _ => 1) id (fun _ => .ok (0, 0))
      (some ((List.range 30).map fun i => fun _ => (i : ℚ))) = .error .zeroDivision :=
  ⟨(C67_available_partial _ _ _ (fun _ _ => ⟨_, rfl⟩) _ (by simp)).imp fun _ h => h.1,
   (C67_short_refuted _ _ _ _).2 (by simp) (by simp)⟩

/-! ### C68: the Geweke diagnostic and the unit of the parameter -/

section
open XR

/-- the Hanning window of `chain/ChainStatistics.py:305` -/
noncomputable def hanning (nw i : ℕ) : ℝ := 1 / 2 * (1 - Real.cos (2 * Real.pi * (i + 1) / (nw + 1)))

/-- spectral estimate of a finite window, real value -/
noncomputable def spectrumReal (x : List ℝ) : ℝ :=
  ((List.range ((x.length - x.length / 4 / 2) / (x.length / 4 - x.length / 4 / 2))).map fun ii =>
    ((List.range (x.length / 4)).map fun i => hanning (x.length / 4) i *
      x.getD (ii * (x.length / 4 - x.length / 4 / 2) + i) 0).sum ^ 2).sum *
  (1 / ((((x.length - x.length / 4 / 2) / (x.length / 4 - x.length / 4 / 2) : ℕ) : ℝ) *
    ((List.range (x.length / 4)).map fun i => hanning (x.length / 4) i ^ 2).sum))

theorem hanning_pos {nw i : ℕ} (h : i < nw) : 0 < hanning nw i := by
  unfold hanning
  have hlt : Real.cos (2 * Real.pi * (i + 1) / (nw + 1)) < 1 := by
    have hne : Real.cos (2 * Real.pi * (i + 1) / (nw + 1)) ≠ 1 := by
      intro hc
      have hpi := Real.pi_pos
      have hnw : (0 : ℝ) < nw + 1 := by positivity
      have hi1 : ((i : ℝ) + 1) < nw + 1 := by
        have : (i : ℝ) < nw := by exact_mod_cast h
        linarith
      rw [Real.cos_eq_one_iff_of_lt_of_lt] at hc
      · have : (0 : ℝ) < 2 * Real.pi * (i + 1) / (nw + 1) := by positivity
        linarith
      · have : (0 : ℝ) < 2 * Real.pi * (i + 1) / (nw + 1) := by positivity
        linarith
      · rw [div_lt_iff₀ hnw]
        nlinarith
    exact lt_of_le_of_ne (Real.cos_le_one _) hne
  linarith

theorem spectrum_fin {x : List ℝ} (h4 : 4 ≤ x.length) :
    spectrumAtZero (fun nw i => fin (hanning nw i)) (x.map fin) = .ok (fin (spectrumReal x)) := by
  have hget : ∀ t, (x.map fin).getD t (lit 0) = fin (x.getD t 0) := by
    intro t
    rw [List.getD_eq_getElem?_getD, List.getD_eq_getElem?_getD, List.getElem?_map]
    cases x[t]? <;> simp
  have hin : ∀ ii, lsum ((List.range (x.length / 4)).map fun i => fin (hanning (x.length / 4) i) *
      (x.map fin).getD (ii * (x.length / 4 - x.length / 4 / 2) + i) (lit 0)) =
      fin (((List.range (x.length / 4)).map fun i => hanning (x.length / 4) i *
        x.getD (ii * (x.length / 4 - x.length / 4 / 2) + i) 0).sum) := by
    intro ii
    rw [← lsum_fin, List.map_map]
    congr 1
    apply List.map_congr_left
    intro i _
    rw [hget]
    simp
  rw [spectrumAtZero_ok _ (m := x.length) (by simp) h4]
  simp only [hin]
  have e1 : ∀ f : ℕ → ℝ, ∀ l : List ℕ, lsum (l.map fun i => fin (f i) * fin (f i)) =
      fin ((l.map fun i => f i ^ 2).sum) := by
    intro f l
    rw [← lsum_fin, List.map_map]
    congr 1
    apply List.map_congr_left
    intro i _
    simp [pow_two]
  rw [e1, e1]
  have hk : 0 < (x.length - x.length / 4 / 2) / (x.length / 4 - x.length / 4 / 2) :=
    Nat.div_pos (by omega) (by omega)
  have hs : 0 < ((List.range (x.length / 4)).map fun i => hanning (x.length / 4) i ^ 2).sum := by
    obtain ⟨w, hw⟩ : ∃ w, x.length / 4 = w + 1 := ⟨x.length / 4 - 1, by omega⟩
    rw [hw, List.range_succ_eq_map, List.map_cons, List.sum_cons]
    have h1 := pow_pos (hanning_pos (nw := w + 1) (i := 0) (by omega)) 2
    have h2 : 0 ≤ ((List.map Nat.succ (List.range w)).map fun i => hanning (w + 1) i ^ 2).sum :=
      List.sum_nonneg fun a ha => by
        obtain ⟨i, -, rfl⟩ := List.mem_map.1 ha
        positivity
    linarith
  simp only [lit_eq, fin_mul]
  rw [fin_div, fin_mul]
  · unfold spectrumReal
    congr 3
    push_cast
    rfl
  · push_cast
    have : (0 : ℝ) < (((x.length - x.length / 4 / 2) / (x.length / 4 - x.length / 4 / 2) : ℕ) : ℝ) := by
      exact_mod_cast hk
    exact (mul_pos this hs).ne'

theorem spectrumReal_scale (x : List ℝ) (c : ℝ) :
    spectrumReal (x.map fun a => c * a) = c ^ 2 * spectrumReal x := by
  have hget : ∀ t, (x.map fun a => c * a).getD t 0 = c * x.getD t 0 := by
    intro t
    rw [List.getD_eq_getElem?_getD, List.getD_eq_getElem?_getD, List.getElem?_map]
    cases x[t]? <;> simp
  unfold spectrumReal
  simp only [List.length_map, hget]
  have e1 : ∀ ii, ((List.range (x.length / 4)).map fun i => hanning (x.length / 4) i *
        (c * x.getD (ii * (x.length / 4 - x.length / 4 / 2) + i) 0)).sum ^ 2 =
      c ^ 2 * ((List.range (x.length / 4)).map fun i => hanning (x.length / 4) i *
        x.getD (ii * (x.length / 4 - x.length / 4 / 2) + i) 0).sum ^ 2 := by
    intro ii
    have : (fun i => hanning (x.length / 4) i *
        (c * x.getD (ii * (x.length / 4 - x.length / 4 / 2) + i) 0)) =
        fun i => c * (hanning (x.length / 4) i *
        x.getD (ii * (x.length / 4 - x.length / 4 / 2) + i) 0) := by funext i; ring
    rw [this, List.sum_map_mul_left, mul_pow]
  simp only [e1]
  rw [List.sum_map_mul_left]
  ring

theorem npMean_map_fin {x : List ℝ} (h : x ≠ []) : npMean (x.map fin) = fin (x.sum / x.length) := by
  have : ((x.length : ℚ) : ℝ) ≠ 0 := by
    simpa using h
  unfold npMean
  rw [lsum_fin, List.length_map, lit_eq, fin_div this]
  simp

/-- the diagnostic of a finite column, as a real number -/
theorem gewekeColumn_fin (cdf : XR → XR) {x : List ℝ} {na nb : ℕ} (hna : 4 ≤ na)
    (h1 : na ≤ x.length) (h2 : nb + 4 ≤ x.length)
    (hs : 0 < spectrumReal (x.take na) / na + spectrumReal (x.drop nb) / (x.length - nb)) :
    gewekeColumn (fun nw i => fin (hanning nw i)) cdf (x.map fin) ((na : ℤ), (nb : ℤ)) =
      let z := ((x.take na).sum / na - (x.drop nb).sum / (x.length - nb)) /
        Real.sqrt (spectrumReal (x.take na) / na + spectrumReal (x.drop nb) / (x.length - nb))
      .ok (fin z, lit 2 * (lit 1 - cdf (fin |z|))) := by
  have b1 : sliceBound x.length (na : ℤ) = na := by
    unfold sliceBound; rw [if_pos (by omega)]; omega
  have b2 : sliceBound x.length (nb : ℤ) = nb := by
    unfold sliceBound; rw [if_pos (by omega)]; omega
  have l1 : (x.take na).length = na := by rw [List.length_take]; omega
  have l2 : (x.drop nb).length = x.length - nb := by rw [List.length_drop]
  have n1 : x.take na ≠ [] := by intro hc; rw [hc] at l1; simp at l1; omega
  have n2 : x.drop nb ≠ [] := by intro hc; rw [hc] at l2; simp at l2; omega
  have c2 : ((x.length - nb : ℕ) : ℝ) = (x.length : ℝ) - nb := by
    rw [Nat.cast_sub (by omega)]
  have p1 : (na : ℝ) ≠ 0 := by exact_mod_cast (by omega : na ≠ 0)
  have p2 : (x.length : ℝ) - nb ≠ 0 := by
    rw [← c2]; exact_mod_cast (by omega : x.length - nb ≠ 0)
  unfold gewekeColumn
  simp only [List.length_map, b1, b2, ← List.map_take, ← List.map_drop]
  rw [spectrum_fin (by omega), ok_bind, spectrum_fin (by omega), ok_bind,
    npMean_map_fin n1, npMean_map_fin n2, l1, l2, c2]
  simp only [lit_eq]
  push_cast
  rw [fin_div p1, fin_div p2, fin_add, sqrt_fin hs.le, fin_sub, fin_div (Real.sqrt_pos.2 hs).ne']
  congr 4
  unfold pyAbs
  simp only [lit_eq, fin_lt, fin_neg]
  push_cast
  split
  · rename_i h
    rw [abs_of_neg (by simpa using h)]
  · rename_i h
    rw [abs_of_nonneg (by simpa using h)]

/-- **C68, full statement:** the Geweke diagnostic does not depend on the unit or the origin of
the parameter.  **Proved here:** scaling the parameter by `c ≠ 0` changes the diagnostic `z` at
most in sign and leaves the p-value as it is, for every finite column, windows of at least four
rows inside the chain and a positive variance estimate.  A shift changes it, see
`C68_shift_refuted`. -/
theorem C68_scale_partial (cdf : XR → XR) {x : List ℝ} {na nb : ℕ} (hna : 4 ≤ na)
    (h1 : na ≤ x.length) (h2 : nb + 4 ≤ x.length)
    (hs : 0 < spectrumReal (x.take na) / na + spectrumReal (x.drop nb) / (x.length - nb))
    {c : ℝ} (hc : c ≠ 0) :
    ∃ z q, gewekeColumn (fun nw i => fin (hanning nw i)) cdf (x.map fin) ((na : ℤ), (nb : ℤ)) =
        .ok (fin z, q) ∧
      gewekeColumn (fun nw i => fin (hanning nw i)) cdf ((x.map fun a => c * a).map fin)
        ((na : ℤ), (nb : ℤ)) = .ok (fin (c / |c| * z), q) := by
  have hc2 : 0 < c ^ 2 := by positivity
  have e1 : spectrumReal ((x.map fun a => c * a).take na) / na +
      spectrumReal ((x.map fun a => c * a).drop nb) / (((x.map fun a => c * a).length : ℝ) - nb) =
      c ^ 2 * (spectrumReal (x.take na) / na + spectrumReal (x.drop nb) / (x.length - nb)) := by
    rw [← List.map_take, ← List.map_drop, spectrumReal_scale, spectrumReal_scale, List.length_map]
    ring
  have e2 : ((x.map fun a => c * a).take na).sum / na -
      ((x.map fun a => c * a).drop nb).sum / (((x.map fun a => c * a).length : ℝ) - nb) =
      c * ((x.take na).sum / na - (x.drop nb).sum / (x.length - nb)) := by
    rw [← List.map_take, ← List.map_drop, List.sum_map_mul_left, List.sum_map_mul_left,
      List.length_map]
    simp only [List.map_id']
    ring
  have hz : ∀ N S : ℝ, c * N / Real.sqrt (c ^ 2 * S) = c / |c| * (N / Real.sqrt S) := by
    intro N S
    rw [Real.sqrt_mul hc2.le, Real.sqrt_sq_eq_abs]
    rw [mul_div_mul_comm]
  have g1 := gewekeColumn_fin cdf hna h1 h2 hs
  have g2 := gewekeColumn_fin cdf (x := x.map fun a => c * a) hna (by simpa using h1)
    (by simpa using h2) (by rw [e1]; exact mul_pos hc2 hs)
  simp only at g1 g2
  rw [e1, e2, hz] at g2
  refine ⟨_, _, g1, ?_⟩
  rw [g2]
  congr 5
  rw [abs_mul, abs_div, abs_abs, div_self (abs_pos.2 hc).ne', one_mul]

/-- **C68 is false for shifts.** Adding one to every value of a column of nine rows changes the
diagnostic (windows: the first four and the last five rows). -/
theorem C68_shift_refuted : ∃ (x : List ℝ) (z z' : ℝ), ∀ cdf : XR → XR,
    (∃ q, gewekeColumn (fun nw i => fin (hanning nw i)) cdf (x.map fin) (4, 4) = .ok (fin z, q)) ∧
    (∃ q, gewekeColumn (fun nw i => fin (hanning nw i)) cdf ((x.map fun a => a + 1).map fin) (4, 4) =
      .ok (fin z', q)) ∧ z ^ 2 ≠ z' ^ 2 := by
  have hh : hanning 1 0 = 1 := by
    unfold hanning
    have : 2 * Real.pi * ((0 : ℕ) + 1) / ((1 : ℕ) + 1) = Real.pi := by push_cast; ring
    rw [this, Real.cos_pi]
    norm_num
  have s1 : spectrumReal [0, 0, 0, 0] = 0 := by
    simp [spectrumReal, List.range_succ]
  have s2 : spectrumReal [1, 1, 1, 1, 1] = 1 := by
    simp [spectrumReal, hh, List.range_succ]
    norm_num
  have s3 : spectrumReal [1, 1, 1, 1] = 1 := by
    simp [spectrumReal, hh, List.range_succ]
    norm_num
  have s4 : spectrumReal [2, 2, 2, 2, 2] = 4 := by
    simp [spectrumReal, hh, List.range_succ]
    norm_num
  refine ⟨[0, 0, 0, 0, 1, 1, 1, 1, 1], _, _, fun cdf => ⟨⟨_, gewekeColumn_fin cdf (na := 4) (nb := 4)
    (by omega) (by simp) (by simp) ?_⟩, ⟨_, gewekeColumn_fin cdf (na := 4) (nb := 4)
    (by omega) (by simp) (by simp) ?_⟩, ?_⟩⟩
  · simp only [List.take, List.drop, s1, s2]; norm_num
  · norm_num [List.take, List.drop, s3, s4]
  · norm_num [List.take, List.drop, s1, s2, s3, s4, div_pow, Real.sq_sqrt]

/-- a column which meets the hypotheses of `C68_scale_partial` -/
example : ∃ x : List ℝ, x.length = 9 ∧
    0 < spectrumReal (x.take 4) / (4 : ℕ) + spectrumReal (x.drop 4) / (x.length - (4 : ℕ)) := by
  have hh : hanning 1 0 = 1 := by
    unfold hanning
    have : 2 * Real.pi * ((0 : ℕ) + 1) / ((1 : ℕ) + 1) = Real.pi := by push_cast; ring
    rw [this, Real.cos_pi]
    norm_num
  refine ⟨[1, 2, 3, 4, 5, 6, 7, 8, 9], rfl, ?_⟩
  simp [spectrumReal, hh, List.range_succ]
  norm_num

end

end Verif
