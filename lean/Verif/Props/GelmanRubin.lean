import Verif.Model.ChainStats
import Verif.Lemmas.XR
import Verif.Lemmas.Basic
import Verif.Spec.Toy
import Mathlib.Tactic.Ring
import Mathlib.Tactic.NormNum
import Mathlib.Tactic.Linarith
import Mathlib.Tactic.FieldSimp
import Mathlib.Tactic.Positivity
import Mathlib.Tactic.GCongr
import Mathlib.Tactic.FinCases
import Mathlib.Tactic.IntervalCases
import Mathlib.Tactic.LinearCombination

/-! # C51: the Gelman-Rubin diagnostic -/

namespace Verif
set_option linter.unusedSectionVars false

open XR

/-! ### Textbook quantities -/

/-- arithmetic mean -/
noncomputable def avg {m : ℕ} (f : Fin m → ℝ) : ℝ := (∑ j, f j) / m
/-- unbiased sample variance -/
noncomputable def svar {m : ℕ} (f : Fin m → ℝ) : ℝ := (∑ j, (f j - avg f) ^ 2) / (m - 1)
/-- mean of the within-chain variances -/
noncomputable def within {n m : ℕ} (x : Fin n → Fin m → ℝ) : ℝ := avg fun j => svar fun i => x i j
/-- variance of the chain means -/
noncomputable def between {n m : ℕ} (x : Fin n → Fin m → ℝ) : ℝ := svar fun j => avg fun i => x i j

/-- the chains as the code gets them -/
def finChains {n m : ℕ} (x : Fin n → Fin m → ℝ) : List (List XR) :=
  List.ofFn fun j => List.ofFn fun i => .fin (x i j)

theorem npMean_fin {m : ℕ} (hm : m ≠ 0) (f : Fin m → ℝ) :
    npMean (List.ofFn fun j => fin (f j)) = fin (avg f) := by
  unfold npMean
  have h : lsum (List.ofFn fun j => fin (f j)) = fin (∑ j, f j) := vsum_fin f
  rw [h, List.length_ofFn, lit_eq, fin_div (by simpa using hm)]
  simp [avg]

theorem npVar1_fin {m : ℕ} (hm : 2 ≤ m) (f : Fin m → ℝ) :
    npVar1 (List.ofFn fun j => fin (f j)) = fin (svar f) := by
  unfold npVar1
  rw [npMean_fin (by omega), List.map_ofFn]
  have h : (fun a : XR => (a - fin (avg f)) * (a - fin (avg f))) ∘ (fun j => fin (f j)) =
      fun j => fin ((f j - avg f) ^ 2) := by
    funext j; simp [pow_two]
  have h2 : lsum (List.ofFn fun j => fin ((f j - avg f) ^ 2)) = fin (∑ j, (f j - avg f) ^ 2) :=
    vsum_fin _
  have hm1 : ((m : ℝ) - 1) ≠ 0 := by
    have : (2 : ℝ) ≤ m := by exact_mod_cast hm
    linarith
  rw [h, h2, List.length_ofFn, lit_eq, fin_div (by push_cast; exact hm1)]
  simp [svar]

theorem svar_nonneg {m : ℕ} (hm : 2 ≤ m) (f : Fin m → ℝ) : 0 ≤ svar f := by
  have : (2 : ℝ) ≤ m := by exact_mod_cast hm
  exact div_nonneg (Finset.sum_nonneg fun _ _ => sq_nonneg _) (by linarith)

/-- **C51, value.** With at least two rows and two chains and a positive within-chain variance
the diagnostic returns the textbook quantities, all finite: `R = √((n-1)/n + (m+1)/m · (B/n)/W)`,
`B = n` times the variance of the chain means, `W` the mean within-chain variance. -/
theorem C51_value {n m : ℕ} (hn : 2 ≤ n) (hm : 2 ≤ m) (x : Fin n → Fin m → ℝ)
    (hW : 0 < within x) :
    ∃ r, calculatePsrf (finChains x) n m = .ok r ∧
      r.R = fin (Real.sqrt (((n : ℝ) - 1) / n + (m + 1) / m * (between x / within x))) ∧
      r.B = fin (n * between x) ∧ r.W = fin (within x) ∧
      r.V = fin ((((n : ℝ) - 1) / n + (m + 1) / m * (between x / within x)) * within x) ∧
      r.neff = fin (if between x = 0 then (m : ℝ) * n else
        min ((m : ℝ) * n) (m * n * ((((n : ℝ) - 1) / n + (m + 1) / m * (between x / within x)) *
          within x) / (n * between x))) := by
  have hn0 : (0 : ℝ) < n := by exact_mod_cast (by omega : 0 < n)
  have hn2 : (2 : ℝ) ≤ n := by exact_mod_cast hn
  have hm0 : (0 : ℝ) < m := by exact_mod_cast (by omega : 0 < m)
  have hB : 0 ≤ between x := svar_nonneg hm _
  have eB : npVar1 ((finChains x).map npMean) = fin (between x) := by
    have : (npMean ∘ fun j => List.ofFn fun i => fin (x i j)) =
        fun j => fin (avg fun i => x i j) := by
      funext j; exact npMean_fin (by omega) _
    rw [finChains, List.map_ofFn, this, npVar1_fin hm]
    rfl
  have eW : npMean ((finChains x).map npVar1) = fin (within x) := by
    have : (npVar1 ∘ fun j => List.ofFn fun i => fin (x i j)) =
        fun j => fin (svar fun i => x i j) := by
      funext j; exact npVar1_fin hn _
    rw [finChains, List.map_ofFn, this, npMean_fin (by omega)]
    rfl
  have hR0 : 0 ≤ ((n : ℝ) - 1) / n + (m + 1) / m * (between x / within x) := by
    have : 0 ≤ ((n : ℝ) - 1) / n := div_nonneg (by linarith) hn0.le
    positivity
  have hRpos : 0 < ((n : ℝ) - 1) / n + (m + 1) / m * (between x / within x) := by
    have : 0 < ((n : ℝ) - 1) / n := div_pos (by linarith) hn0
    positivity
  have eR : (lit ((m : ℚ) + 1) / lit (m : ℚ) *
      (lit ((n : ℚ) - 1) / lit (n : ℚ) * fin (within x) + fin (between x)) / fin (within x) -
      lit ((n : ℚ) - 1) / lit (m : ℚ) / lit (n : ℚ) : XR) =
      fin (((n : ℝ) - 1) / n + (m + 1) / m * (between x / within x)) := by
    simp only [lit_eq]
    push_cast
    rw [fin_div hm0.ne', fin_div hn0.ne', fin_mul, fin_add, fin_mul, fin_div hW.ne', fin_div hm0.ne',
      fin_div hn0.ne', fin_sub, fin_inj]
    field_simp
    ring
  unfold calculatePsrf
  rw [if_neg (by omega)]
  refine ⟨_, rfl, ?_⟩
  dsimp only
  rw [eB, eW, eR, sqrt_fin hR0]
  refine ⟨rfl, ?_, rfl, by rw [fin_mul], ?_⟩
  · simp [mul_comm]
  · simp only [lit_eq, fin_mul]
    push_cast
    by_cases hb : between x = 0
    · rw [if_pos hb, hb]
      have e0 : (0 : ℝ) * n = 0 := zero_mul _
      rw [e0, fin_div_zero]
      · rfl
      · rw [hb] at hRpos
        positivity
    · rw [if_neg hb, fin_div (mul_ne_zero hb hn0.ne'), mul_comm (between x) (n : ℝ)]
      unfold pyMin
      rw [fin_lt]
      split
      · rename_i h
        rw [min_eq_left (of_decide_eq_true h).le]
      · rename_i h
        rw [min_eq_right (by simpa using h)]

/-- **C51, lower bound.** The scale reduction factor is at least `√((n-1)/n)`, with equality
exactly when all chain means agree. -/
theorem C51_lower {n m : ℕ} (hn : 2 ≤ n) (hm : 2 ≤ m) (x : Fin n → Fin m → ℝ)
    (hW : 0 < within x) {r : Psrf XR} (h : calculatePsrf (finChains x) n m = .ok r) :
    ∃ R, r.R = fin R ∧ Real.sqrt (((n : ℝ) - 1) / n) ≤ R ∧
      (R = Real.sqrt (((n : ℝ) - 1) / n) ↔
        ∀ j j' : Fin m, (∑ i, x i j) / n = (∑ i, x i j') / n) := by
  obtain ⟨r', h', hR, -⟩ := C51_value hn hm x hW
  rw [h] at h'
  cases h'
  have hn0 : (0 : ℝ) < n := by exact_mod_cast (by omega : 0 < n)
  have hn2 : (2 : ℝ) ≤ n := by exact_mod_cast hn
  have hm2 : (2 : ℝ) ≤ m := by exact_mod_cast hm
  have hm0 : (0 : ℝ) < m := by linarith
  have hB : 0 ≤ between x := svar_nonneg hm _
  have hn1 : 0 ≤ ((n : ℝ) - 1) / n := div_nonneg (by linarith) hn0.le
  have ht : 0 ≤ ((m : ℝ) + 1) / m * (between x / within x) := by positivity
  refine ⟨_, hR, Real.sqrt_le_sqrt (by linarith), ?_⟩
  rw [Real.sqrt_inj (by linarith) hn1]
  have e1 : (((n : ℝ) - 1) / n + (m + 1) / m * (between x / within x) = ((n : ℝ) - 1) / n) ↔
      between x = 0 := by
    constructor
    · intro h0
      have h1 : ((m : ℝ) + 1) / m * (between x / within x) = 0 := by linarith
      rcases mul_eq_zero.1 h1 with h2 | h2
      · exact absurd h2 (by positivity)
      · rcases div_eq_zero_iff.1 h2 with h3 | h3
        · exact h3
        · exact absurd h3 hW.ne'
    · intro h0
      rw [h0]; simp
  rw [e1]
  have hm1 : ((m : ℝ) - 1) ≠ 0 := by linarith
  unfold between svar
  rw [div_eq_zero_iff, or_iff_left hm1, Finset.sum_eq_zero_iff_of_nonneg fun _ _ => sq_nonneg _]
  constructor
  · intro h0 j j'
    have a := pow_eq_zero_iff (two_ne_zero) |>.1 (h0 j (Finset.mem_univ _))
    have b := pow_eq_zero_iff (two_ne_zero) |>.1 (h0 j' (Finset.mem_univ _))
    simp only [avg] at a b ⊢
    linarith
  · intro h0 j _
    have : avg (fun j => avg fun i => x i j) = avg fun i => x i j := by
      have e : (fun j => avg fun i => x i j) = fun _ : Fin m => avg fun i => x i j := by
        funext j'; exact h0 j' j
      rw [e]
      simp only [avg, Finset.sum_const, Finset.card_univ, Fintype.card_fin, nsmul_eq_mul]
      field_simp
    rw [this, sub_self]
    ring

/-- **C51, effective number of samples.** It is finite, positive and at most the number of rows
of all chains together. -/
theorem C51_effective {n m : ℕ} (hn : 2 ≤ n) (hm : 2 ≤ m) (x : Fin n → Fin m → ℝ)
    (hW : 0 < within x) {r : Psrf XR} (h : calculatePsrf (finChains x) n m = .ok r) :
    ∃ e, r.neff = fin e ∧ 0 < e ∧ e ≤ (m : ℝ) * n := by
  obtain ⟨r', h', -, -, -, -, hE⟩ := C51_value hn hm x hW
  rw [h] at h'
  cases h'
  refine ⟨_, hE, ?_, ?_⟩
  · have hn0 : (0 : ℝ) < n := by exact_mod_cast (by omega : 0 < n)
    have hn2 : (2 : ℝ) ≤ n := by exact_mod_cast hn
    have hm0 : (0 : ℝ) < m := by exact_mod_cast (by omega : 0 < m)
    have hB : 0 ≤ between x := svar_nonneg hm _
    split
    · positivity
    · rename_i hb
      have hB' : 0 < between x := lt_of_le_of_ne hB (Ne.symm hb)
      have : 0 < ((n : ℝ) - 1) / n := div_pos (by linarith) hn0
      apply lt_min <;> positivity
  · split
    · exact le_refl _
    · exact min_le_left _ _

theorem avg_perm {m : ℕ} (f : Fin m → ℝ) (s : Equiv.Perm (Fin m)) : (avg fun j => f (s j)) = avg f := by
  unfold avg; rw [Equiv.sum_comp s]

theorem svar_perm {m : ℕ} (f : Fin m → ℝ) (s : Equiv.Perm (Fin m)) :
    (svar fun j => f (s j)) = svar f := by
  unfold svar
  rw [avg_perm, Equiv.sum_comp s fun j => (f j - avg f) ^ 2]

theorem avg_affine {m : ℕ} (hm : 0 < m) (f : Fin m → ℝ) (c d : ℝ) :
    (avg fun j => c * f j + d) = c * avg f + d := by
  unfold avg
  have : (m : ℝ) ≠ 0 := by exact_mod_cast hm.ne'
  rw [Finset.sum_add_distrib, ← Finset.mul_sum]
  simp only [Finset.sum_const, Finset.card_univ, Fintype.card_fin, nsmul_eq_mul]
  field_simp

theorem svar_affine {m : ℕ} (hm : 0 < m) (f : Fin m → ℝ) (c d : ℝ) :
    (svar fun j => c * f j + d) = c ^ 2 * svar f := by
  unfold svar
  rw [avg_affine hm]
  have : ∀ j, (c * f j + d - (c * avg f + d)) ^ 2 = c ^ 2 * (f j - avg f) ^ 2 := fun j => by ring
  simp only [this]
  rw [← Finset.mul_sum, mul_div_assoc]

/-- **C51, order of the chains.** The results do not depend on the order of the chains. -/
theorem C51_permutation {n m : ℕ} (hn : 2 ≤ n) (hm : 2 ≤ m) (x : Fin n → Fin m → ℝ)
    (hW : 0 < within x) (s : Equiv.Perm (Fin m)) :
    calculatePsrf (finChains fun i j => x i (s j)) n m = calculatePsrf (finChains x) n m := by
  have e1 : within (fun i j => x i (s j)) = within x :=
    avg_perm (fun j => svar fun i => x i j) s
  have e2 : between (fun i j => x i (s j)) = between x :=
    svar_perm (fun j => avg fun i => x i j) s
  obtain ⟨r, h, a1, a2, a3, a4, a5⟩ := C51_value hn hm x hW
  obtain ⟨r', h', b1, b2, b3, b4, b5⟩ := C51_value hn hm (fun i j => x i (s j)) (by rw [e1]; exact hW)
  rw [h, h']
  rw [e1, e2] at b1 b4 b5
  rw [e2] at b2
  rw [e1] at b3
  congr 1
  cases r; cases r'
  simp only at a1 a2 a3 a4 a5 b1 b2 b3 b4 b5
  simp only [Psrf.mk.injEq]
  exact ⟨by rw [a1, b1], by rw [a2, b2], by rw [a3, b3], by rw [a4, b4], by rw [a5, b5]⟩

/-- **C51, units of the parameter.** Scaling the parameter by `c ≠ 0` and shifting it leaves
the scale reduction factor and the effective number of samples as they are. -/
theorem C51_affine {n m : ℕ} (hn : 2 ≤ n) (hm : 2 ≤ m) (x : Fin n → Fin m → ℝ)
    (hW : 0 < within x) (c d : ℝ) (hc : c ≠ 0) {r r' : Psrf XR}
    (h : calculatePsrf (finChains x) n m = .ok r)
    (h' : calculatePsrf (finChains fun i j => c * x i j + d) n m = .ok r') :
    r'.R = r.R ∧ r'.neff = r.neff := by
  have hc2 : 0 < c ^ 2 := by positivity
  have e1 : within (fun i j => c * x i j + d) = c ^ 2 * within x := by
    have : (fun j => svar fun i => c * x i j + d) = fun j => c ^ 2 * (svar fun i => x i j) + 0 := by
      funext j; rw [svar_affine (by omega), add_zero]
    unfold within
    rw [this, avg_affine (by omega), add_zero]
  have e2 : between (fun i j => c * x i j + d) = c ^ 2 * between x := by
    have : (fun j => avg fun i => c * x i j + d) = fun j => c * (avg fun i => x i j) + d := by
      funext j; rw [avg_affine (by omega)]
    unfold between
    rw [this, svar_affine (by omega)]
  have e3 : c ^ 2 * between x / (c ^ 2 * within x) = between x / within x := by
    rw [mul_div_mul_left _ _ hc2.ne']
  obtain ⟨s, hs, a1, -, -, -, a5⟩ := C51_value hn hm x hW
  obtain ⟨s', hs', b1, -, -, -, b5⟩ := C51_value hn hm (fun i j => c * x i j + d)
    (by rw [e1]; positivity)
  rw [h] at hs
  rw [h'] at hs'
  cases hs; cases hs'
  rw [a1, a5, b1, b5, e1, e2, e3]
  refine ⟨rfl, ?_⟩
  congr 1
  by_cases hb : between x = 0
  · rw [if_pos hb, if_pos (by rw [hb, mul_zero])]
  · rw [if_neg hb, if_neg (mul_ne_zero hc2.ne' hb)]
    congr 1
    have hn0 : (n : ℝ) ≠ 0 := by exact_mod_cast (by omega : n ≠ 0)
    have hm0 : (m : ℝ) ≠ 0 := by exact_mod_cast (by omega : m ≠ 0)
    have hW' := hW.ne'
    field_simp

/-- two chains of two rows, `(0, 2)` and `(1, 5)`: within-chain variances 2 and 8, means 1 and 3 -/
example : ∃ x : Fin 2 → Fin 2 → ℝ, within x = 5 ∧ between x = 2 := by
  refine ⟨![![0, 1], ![2, 5]], ?_, ?_⟩
  · simp [within, avg, svar, Fin.sum_univ_two]; norm_num
  · simp [between, avg, svar, Fin.sum_univ_two]; norm_num

/-- **C51, several parameters.** For two or more chains of the same length the diagnostic of
parameter `k` is `calculate_psrf` of the columns `k` of the chains. -/
theorem C51_assembled {F : Type} [PyFloat F] {p n : ℕ} (chains : List (List (Vec F p)))
    (h2 : 2 ≤ chains.length) (hn : ∀ c ∈ chains, c.length = n) (hn0 : 0 < n) :
    ∃ r, gelmanRubin chains = .ok r ∧ r.length = p ∧
      ∀ k : Fin p, ∃ y, r[k.1]? = some y ∧
        calculatePsrf (chains.map fun c => c.map fun row => row k) n chains.length = .ok y := by
  obtain ⟨c0, rest, rfl⟩ : ∃ c0 rest, chains = c0 :: rest := by
    cases chains with
    | nil => simp at h2
    | cons a l => exact ⟨a, l, rfl⟩
  have h0 : c0.length = n := hn c0 (by simp)
  have hcol : ∀ k : Fin p, (c0 :: rest).mapM (fun c => chainColumn c0.length c k) =
      .ok ((c0 :: rest).map fun c => c.map fun row => row k) := by
    intro k
    have : ∀ l : List (List (Vec F p)), (∀ c ∈ l, c.length = n) →
        l.mapM (fun c => chainColumn c0.length c k) = .ok (l.map fun c => c.map fun row => row k) := by
      intro l
      induction l with
      | nil => intro _; rfl
      | cons c l ih =>
        intro hl
        rw [List.mapM_cons, ih fun c hc => hl c (List.mem_cons_of_mem _ hc)]
        unfold chainColumn
        rw [if_pos (by rw [h0]; exact hl c (by simp))]
        rfl
    exact this _ hn
  have hpar : ∀ l : List (Fin p), l.mapM (fun ii => (c0 :: rest).mapM fun c =>
      chainColumn c0.length c ii) =
      .ok (l.map fun k => (c0 :: rest).map fun c => c.map fun row => row k) := by
    intro l
    induction l with
    | nil => rfl
    | cons k l ih => rw [List.mapM_cons, ih, hcol]; rfl
  have hok : ∀ x : List (List F), ∃ y, calculatePsrf x n (c0 :: rest).length = .ok y := by
    intro x
    unfold calculatePsrf
    rw [if_neg (by simp; omega)]
    exact ⟨_, rfl⟩
  choose f hf using hok
  have hfin : ∀ l : List (List (List F)), l.mapM (fun cols =>
      calculatePsrf cols c0.length (c0 :: rest).length) = .ok (l.map f) := by
    intro l
    induction l with
    | nil => rfl
    | cons k l ih => rw [List.mapM_cons, ih, h0, hf]; rfl
  refine ⟨(List.finRange p).map fun k => f ((c0 :: rest).map fun c => c.map fun row => row k), ?_,
    by simp, fun k => ⟨f ((c0 :: rest).map fun c => c.map fun row => row k), by simp, hf _⟩⟩
  unfold gelmanRubin
  have e0 : pyGet (c0 :: rest) 0 = .ok c0 := rfl
  rw [e0, ok_bind, if_neg (by omega), hpar, ok_bind, hfin, List.map_map]
  rfl

/-- Two chains of two rows and two columns. -/
example : ∃ r, gelmanRubin (F := ℚ) (p := 2) [[![0, 5], ![2, 6]], [![1, 5], ![5, 9]]] = .ok r ∧ r.length = 2 := by
  obtain ⟨r, h, h1, -⟩ := C51_assembled (F := ℚ) (p := 2) (n := 2) [[![0, 5], ![2, 6]], [![1, 5], ![5, 9]]] (by simp)
    (by simp) (by norm_num)
  exact ⟨r, h, h1⟩

/-- **C51, a single chain is refused.** -/
theorem C51_single {F : Type} [PyFloat F] {p : ℕ} (c : List (Vec F p)) :
    gelmanRubin [c] = .error .valueError := rfl

end Verif
