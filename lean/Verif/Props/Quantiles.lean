import Verif.Model.Quantiles
import Mathlib.Tactic.Linarith
import Mathlib.Tactic.FieldSimp
import Mathlib.Tactic.Ring
import Mathlib.Tactic.NormNum
import Mathlib.Data.Rat.Floor

/-!
# Properties C40, C41, C46: quantiles and intervals
-/

set_option linter.unusedSectionVars false

namespace Verif

section
variable {K : Type} [Field K] [LinearOrder K] [IsStrictOrderedRing K] [FloorSemiring K] {c : ℕ}

/-- position of the left knot used for the point `t` -/
theorem interpAt_spec {ys : List K} (hn : 2 ≤ ys.length) {t : K} (h0 : 0 ≤ t)
    (h1 : t ≤ (ys.length : K) - 1) :
    max 1 ⌈t⌉₊ - 1 + 1 < ys.length ∧ ((max 1 ⌈t⌉₊ - 1 : ℕ) : K) ≤ t ∧
    t ≤ ((max 1 ⌈t⌉₊ - 1 : ℕ) : K) + 1 ∧
    interpAt ys t = (ys.getD (max 1 ⌈t⌉₊ - 1 + 1) 0 - ys.getD (max 1 ⌈t⌉₊ - 1) 0) *
      (t - ((max 1 ⌈t⌉₊ - 1 : ℕ) : K)) + ys.getD (max 1 ⌈t⌉₊ - 1) 0 := by
  have hc : ⌈t⌉₊ ≤ ys.length - 1 := by
    rw [Nat.ceil_le, Nat.cast_sub (by omega)]; simpa using h1
  have hm : max 1 (min (ys.length - 1) ⌈t⌉₊) = max 1 ⌈t⌉₊ := by rw [min_eq_right hc]
  have hpos : 1 ≤ max 1 ⌈t⌉₊ := le_max_left _ _
  have hcast : ((max 1 ⌈t⌉₊ : ℕ) : K) - ((max 1 ⌈t⌉₊ - 1 : ℕ) : K) = 1 := by
    rw [Nat.cast_sub hpos]; push_cast; ring
  refine ⟨by omega, ?_, ?_, ?_⟩
  · by_cases h : 1 ≤ ⌈t⌉₊
    · rw [max_eq_right h, Nat.cast_sub h]
      have := Nat.ceil_lt_add_one h0
      push_cast
      linarith
    · have : ⌈t⌉₊ = 0 := by omega
      rw [this]; simpa using h0
  · rw [Nat.cast_sub hpos]
    have h2 : t ≤ (⌈t⌉₊ : K) := Nat.le_ceil t
    have h3 : ((⌈t⌉₊ : ℕ) : K) ≤ ((max 1 ⌈t⌉₊ : ℕ) : K) := by
      exact_mod_cast le_max_right _ _
    push_cast at h3 ⊢
    linarith
  · unfold interpAt
    simp only
    rw [hm, hcast, div_one, Nat.sub_add_cancel hpos]

theorem getD_mono {ys : List K} (hs : ys.Pairwise (· ≤ ·)) {i j : ℕ} (hij : i ≤ j)
    (hj : j < ys.length) : ys.getD i 0 ≤ ys.getD j 0 := by
  rw [List.getD_eq_getElem?_getD, List.getD_eq_getElem?_getD, List.getElem?_eq_getElem hj,
    List.getElem?_eq_getElem (by omega)]
  rcases Nat.lt_or_ge i j with h | h
  · exact List.pairwise_iff_getElem.1 hs i j (by omega) hj h
  · have : i = j := by omega
    subst this; exact le_refl _

/-- the interpolated value lies between the values at its knots -/
theorem interpAt_between {ys : List K} (hs : ys.Pairwise (· ≤ ·)) (hn : 2 ≤ ys.length) {t : K}
    (h0 : 0 ≤ t) (h1 : t ≤ (ys.length : K) - 1) :
    ys.getD (max 1 ⌈t⌉₊ - 1) 0 ≤ interpAt ys t ∧
    interpAt ys t ≤ ys.getD (max 1 ⌈t⌉₊ - 1 + 1) 0 := by
  obtain ⟨hl, ha, hb, he⟩ := interpAt_spec hn h0 h1
  have hm := getD_mono hs (Nat.le_succ _) hl
  rw [Nat.succ_eq_add_one] at hm
  rw [he]
  constructor
  · have := mul_nonneg (sub_nonneg.2 hm) (sub_nonneg.2 ha); linarith
  · have := mul_nonneg (sub_nonneg.2 hm) (sub_nonneg.2 hb)
    nlinarith

theorem interpAt_mono {ys : List K} (hs : ys.Pairwise (· ≤ ·)) (hn : 2 ≤ ys.length) {t u : K}
    (h0 : 0 ≤ t) (htu : t ≤ u) (h1 : u ≤ (ys.length : K) - 1) :
    interpAt ys t ≤ interpAt ys u := by
  have hlo : max 1 ⌈t⌉₊ - 1 ≤ max 1 ⌈u⌉₊ - 1 := by
    have := Nat.ceil_mono htu; omega
  rcases Nat.lt_or_ge (max 1 ⌈t⌉₊ - 1) (max 1 ⌈u⌉₊ - 1) with h | h
  · obtain ⟨hl, -, -, -⟩ := interpAt_spec hn (h0.trans htu) h1
    refine (interpAt_between hs hn h0 (htu.trans h1)).2.trans
      (le_trans ?_ (interpAt_between hs hn (h0.trans htu) h1).1)
    exact getD_mono hs (by omega) (by omega)
  · have heq : max 1 ⌈t⌉₊ - 1 = max 1 ⌈u⌉₊ - 1 := by omega
    obtain ⟨hl, ha, hb, he⟩ := interpAt_spec hn h0 (htu.trans h1)
    obtain ⟨hl', ha', hb', he'⟩ := interpAt_spec hn (h0.trans htu) h1
    rw [he, he', heq]
    have hm := getD_mono hs (Nat.le_succ _) hl'
    rw [Nat.succ_eq_add_one] at hm
    have := mul_le_mul_of_nonneg_left (sub_le_sub_right htu ((max 1 ⌈u⌉₊ - 1 : ℕ) : K))
      (sub_nonneg.2 hm)
    linarith

theorem interpAt_zero {ys : List K} (hn : 2 ≤ ys.length) : interpAt ys 0 = ys.getD 0 0 := by
  have h1 : (0 : K) ≤ (ys.length : K) - 1 := by
    have : (2 : K) ≤ (ys.length : K) := by exact_mod_cast hn
    linarith
  obtain ⟨-, -, -, he⟩ := interpAt_spec hn (le_refl (0 : K)) h1
  rw [he]; simp

theorem interpAt_last {ys : List K} (hn : 2 ≤ ys.length) :
    interpAt ys ((ys.length : K) - 1) = ys.getD (ys.length - 1) 0 := by
  have h1 : (0 : K) ≤ (ys.length : K) - 1 := by
    have : (2 : K) ≤ (ys.length : K) := by exact_mod_cast hn
    linarith
  obtain ⟨-, -, -, he⟩ := interpAt_spec hn h1 (le_refl _)
  have hc : ⌈(ys.length : K) - 1⌉₊ = ys.length - 1 := by
    have : (ys.length : K) - 1 = ((ys.length - 1 : ℕ) : K) := by
      rw [Nat.cast_sub (by omega)]; simp
    rw [this, Nat.ceil_natCast]
  rw [he, hc, max_eq_right (by omega)]
  have e : ys.length - 1 - 1 + 1 = ys.length - 1 := by omega
  rw [e, Nat.cast_sub (by omega), Nat.cast_sub (by omega)]
  push_cast
  ring

theorem interpAt_affine {ys : List K} (hn : 2 ≤ ys.length) {t : K} (h0 : 0 ≤ t)
    (h1 : t ≤ (ys.length : K) - 1) (a b : K) :
    interpAt (ys.map fun y => a * y + b) t = a * interpAt ys t + b := by
  have hn' : 2 ≤ (ys.map fun y => a * y + b).length := by simpa using hn
  obtain ⟨hl, -, -, he⟩ := interpAt_spec hn h0 h1
  obtain ⟨-, -, -, he'⟩ := interpAt_spec hn' h0 (by simpa using h1)
  have hg : ∀ i < ys.length, (ys.map fun y => a * y + b).getD i 0 = a * ys.getD i 0 + b := by
    intro i hi
    simp [List.getD_eq_getElem?_getD, List.getElem?_eq_getElem hi]
  rw [he, he', hg _ hl, hg _ (by omega)]
  ring

theorem insertionSort_map_affine (x : List K) {a : K} (ha : 0 < a) (b : K) :
    (x.map fun y => a * y + b).insertionSort (· ≤ ·) =
      (x.insertionSort (· ≤ ·)).map fun y => a * y + b := by
  refine List.Perm.eq_of_pairwise (le := (· ≤ ·)) (fun _ _ _ _ h1 h2 => le_antisymm h1 h2)
    (List.pairwise_insertionSort _ _) ?_ ?_
  · rw [List.pairwise_map]
    refine (List.pairwise_insertionSort (· ≤ ·) x).imp ?_
    intro u v huv
    have := mul_le_mul_of_nonneg_left huv ha.le
    linarith
  · exact (List.perm_insertionSort _ _).trans ((List.perm_insertionSort _ x).map _).symm

/-- the quantiles of one sample exist for every list of probabilities in `[0,1]`, and are given
by one interpolation per probability and column -/
theorem empiricalQuantiles_ok {x : List (Fin c → K)} (hn : 2 ≤ x.length) {p : List K}
    (hp : ∀ q ∈ p, 0 ≤ q ∧ q ≤ 1) :
    empiricalQuantiles x p = .ok (p.map fun q => fun j =>
      interpAt ((x.map fun r => r j).insertionSort (· ≤ ·)) (((x.length : K) - 1) * q)) := by
  have hx : (2 : K) ≤ (x.length : K) := by exact_mod_cast hn
  unfold empiricalQuantiles
  rw [if_neg (by omega), if_neg]
  rw [Bool.not_eq_true, List.any_eq_false]
  intro q hq
  obtain ⟨h0, h1⟩ := hp q hq
  have e1 : 0 ≤ ((x.length : K) - 1) * q := mul_nonneg (by linarith) h0
  have e2 : ((x.length : K) - 1) * q ≤ (x.length : K) - 1 := by
    have := mul_le_mul_of_nonneg_left h1 (show (0 : K) ≤ (x.length : K) - 1 by linarith)
    linarith
  simp [e1, e2]

/-- **C40.** For a sample of at least two rows and a list of probabilities in `[0,1]` the
quantile function returns one row per probability; every entry lies between all lower and upper
bounds of its column; larger probabilities give larger entries; probability 0 gives a smallest
and probability 1 a largest entry of the column. -/
theorem C40_order {x : List (Fin c → K)} (hn : 2 ≤ x.length) {p : List K}
    (hp : ∀ q ∈ p, 0 ≤ q ∧ q ≤ 1) :
    ∃ v, empiricalQuantiles x p = .ok v ∧ v.length = p.length ∧
      (∀ row ∈ v, ∀ (j : Fin c) (lo hi : K), (∀ r ∈ x, lo ≤ r j ∧ r j ≤ hi) →
        lo ≤ row j ∧ row j ≤ hi) ∧
      (∀ (i k : ℕ) (a b : K) (ra rb : Fin c → K), p[i]? = some a → p[k]? = some b →
        v[i]? = some ra → v[k]? = some rb → a ≤ b → ∀ j, ra j ≤ rb j) ∧
      (∀ (i : ℕ) (row : Fin c → K), v[i]? = some row → ∀ j : Fin c,
        (p[i]? = some 0 → (∃ r ∈ x, row j = r j) ∧ ∀ r ∈ x, row j ≤ r j) ∧
        (p[i]? = some 1 → (∃ r ∈ x, row j = r j) ∧ ∀ r ∈ x, r j ≤ row j)) := by
  have hx : (2 : K) ≤ (x.length : K) := by exact_mod_cast hn
  refine ⟨_, empiricalQuantiles_ok hn hp, by simp, ?_, ?_, ?_⟩
  · intro row hrow j lo hi hb
    obtain ⟨q, hq, rfl⟩ := List.mem_map.1 hrow
    obtain ⟨h0, h1⟩ := hp q hq
    have hlen : ((x.map fun r => r j).insertionSort (· ≤ ·)).length = x.length := by simp
    have hs := List.pairwise_insertionSort (· ≤ ·) (x.map fun r => r j)
    have e1 : 0 ≤ ((x.length : K) - 1) * q := mul_nonneg (by linarith) h0
    have e2 : ((x.length : K) - 1) * q ≤
        (((x.map fun r => r j).insertionSort (· ≤ ·)).length : K) - 1 := by
      rw [hlen]
      have := mul_le_mul_of_nonneg_left h1 (show (0 : K) ≤ (x.length : K) - 1 by linarith)
      linarith
    obtain ⟨hl, -, -, -⟩ := interpAt_spec (by rw [hlen]; exact hn) e1 e2
    obtain ⟨b1, b2⟩ := interpAt_between hs (by rw [hlen]; exact hn) e1 e2
    have hmem : ∀ i < ((x.map fun r => r j).insertionSort (· ≤ ·)).length,
        lo ≤ ((x.map fun r => r j).insertionSort (· ≤ ·)).getD i 0 ∧
        ((x.map fun r => r j).insertionSort (· ≤ ·)).getD i 0 ≤ hi := by
      intro i hi'
      rw [List.getD_eq_getElem?_getD, List.getElem?_eq_getElem hi']
      have hm := (List.perm_insertionSort (· ≤ ·) (x.map fun r => r j)).mem_iff.1
        (List.getElem_mem hi')
      obtain ⟨r, hr, hre⟩ := List.mem_map.1 hm
      rw [Option.getD_some, ← hre]
      exact hb r hr
    exact ⟨(hmem _ (by omega)).1.trans b1, b2.trans (hmem _ hl).2⟩
  · intro i k a b ra rb hi hk hra hrb hab j
    rw [List.getElem?_map, hi] at hra
    rw [List.getElem?_map, hk] at hrb
    simp only [Option.map_some, Option.some.injEq] at hra hrb
    subst hra hrb
    have hlen : ((x.map fun r => r j).insertionSort (· ≤ ·)).length = x.length := by simp
    have ha := hp a (List.mem_of_getElem? hi)
    have hb := hp b (List.mem_of_getElem? hk)
    refine interpAt_mono (List.pairwise_insertionSort _ _) (by rw [hlen]; exact hn)
      (mul_nonneg (by linarith) ha.1) (mul_le_mul_of_nonneg_left hab (by linarith)) ?_
    rw [hlen]
    have := mul_le_mul_of_nonneg_left hb.2 (show (0 : K) ≤ (x.length : K) - 1 by linarith)
    linarith
  · intro i row hrow j
    have hs := List.pairwise_insertionSort (· ≤ ·) (x.map fun r => r j)
    have hperm := List.perm_insertionSort (· ≤ ·) (x.map fun r => r j)
    generalize hys : (x.map fun r => r j).insertionSort (· ≤ ·) = ys at hs hperm
    have hlen : ys.length = x.length := by rw [hperm.length_eq]; simp
    have hex : ∀ i < ys.length, ∃ r ∈ x, ys.getD i 0 = r j := by
      intro i hi
      rw [List.getD_eq_getElem?_getD, List.getElem?_eq_getElem hi]
      obtain ⟨r, hr, hre⟩ := List.mem_map.1 (hperm.mem_iff.1 (List.getElem_mem hi))
      exact ⟨r, hr, hre.symm⟩
    have hpos : ∀ r ∈ x, ∃ i < ys.length, ys.getD i 0 = r j := by
      intro r hr
      obtain ⟨i, hi, he⟩ := List.getElem_of_mem
        (hperm.mem_iff.2 (List.mem_map.2 ⟨r, hr, rfl⟩))
      exact ⟨i, hi, by rw [List.getD_eq_getElem?_getD, List.getElem?_eq_getElem hi, he]; rfl⟩
    constructor
    · intro hi
      rw [List.getElem?_map, hi] at hrow
      simp only [Option.map_some, Option.some.injEq] at hrow
      have hv : row j = ys.getD 0 0 := by
        rw [← hrow]
        simp only []
        rw [hys, mul_zero, interpAt_zero (by omega)]
      rw [hv]
      refine ⟨hex 0 (by omega), fun r hr => ?_⟩
      obtain ⟨k, hk, he⟩ := hpos r hr
      rw [← he]
      exact getD_mono hs (by omega) hk
    · intro hi
      rw [List.getElem?_map, hi] at hrow
      simp only [Option.map_some, Option.some.injEq] at hrow
      have hv : row j = ys.getD (ys.length - 1) 0 := by
        rw [← hrow]
        simp only []
        rw [hys, mul_one, ← hlen, interpAt_last (by omega)]
      rw [hv]
      refine ⟨hex _ (by omega), fun r hr => ?_⟩
      obtain ⟨k, hk, he⟩ := hpos r hr
      rw [← he]
      exact getD_mono hs (by omega) (by omega)

/-- **C40, order of the sample.** Permuting the rows, or the values within a column, does not
change the result (whether it is a value or an exception). -/
theorem C40_permutation {x x' : List (Fin c → K)}
    (hperm : ∀ j, (x.map fun r => r j).Perm (x'.map fun r => r j)) (hl : x.length = x'.length)
    (p : List K) : empiricalQuantiles x p = empiricalQuantiles x' p := by
  have hs : ∀ j, (x.map fun r => r j).insertionSort (· ≤ ·) =
      (x'.map fun r => r j).insertionSort (· ≤ ·) := fun j =>
    List.Perm.eq_of_pairwise (le := (· ≤ ·)) (fun _ _ _ _ h1 h2 => le_antisymm h1 h2)
      (List.pairwise_insertionSort _ _) (List.pairwise_insertionSort _ _)
      ((List.perm_insertionSort _ _).trans ((hperm j).trans (List.perm_insertionSort _ _).symm))
  unfold empiricalQuantiles
  simp only [hl, hs]

/-- **C40, change of units.** Replacing every value `y` of column `j` by `a j * y + b j` with
`a j > 0` changes the quantiles in the same way. -/
theorem C40_affine {x : List (Fin c → K)} (hn : 2 ≤ x.length) {p : List K}
    (hp : ∀ q ∈ p, 0 ≤ q ∧ q ≤ 1) (a b : Fin c → K) (ha : ∀ j, 0 < a j)
    {v : List (Fin c → K)} (hv : empiricalQuantiles x p = .ok v) :
    empiricalQuantiles (x.map fun r => fun j => a j * r j + b j) p =
      .ok (v.map fun r => fun j => a j * r j + b j) := by
  have hx : (2 : K) ≤ (x.length : K) := by exact_mod_cast hn
  rw [empiricalQuantiles_ok hn hp] at hv
  cases hv
  rw [empiricalQuantiles_ok (by simpa using hn) hp]
  simp only [List.map_map, List.length_map, Except.ok.injEq]
  refine List.map_congr_left fun q hq => ?_
  funext j
  simp only [Function.comp_apply]
  have hlen : ((x.map fun r => r j).insertionSort (· ≤ ·)).length = x.length := by simp
  have e : List.map ((fun r : Fin c → K => r j) ∘ fun r => fun j => a j * r j + b j) x =
      (x.map fun r => r j).map fun y => a j * y + b j := by
    rw [List.map_map]; rfl
  rw [e, insertionSort_map_affine _ (ha j)]
  refine interpAt_affine (by rw [hlen]; exact hn) (mul_nonneg (by linarith) (hp q hq).1) ?_ _ _
  rw [hlen]
  have := mul_le_mul_of_nonneg_left (hp q hq).2 (show (0 : K) ≤ (x.length : K) - 1 by linarith)
  linarith

/-- **C41.** For a sample of at least two rows and limits `0 ≤ l₂ ≤ l₁ ≤ 100`: both intervals can
be computed, the one for `l₂` is contained in the one for `l₁`, and it contains the median, at
every output point. -/
theorem C41_nested {x : List (Fin c → K)} (hn : 2 ≤ x.length) {l₁ l₂ : K} (h2 : 0 ≤ l₂)
    (h12 : l₂ ≤ l₁) (h1 : l₁ ≤ 100) :
    ∃ a₁ b₁ a₂ b₂ med : Fin c → K,
      (convertLimits [l₁, l₂]).mapM (empiricalQuantiles x) = .ok [[a₁, b₁], [a₂, b₂]] ∧
      empiricalQuantiles x [1 / 2] = .ok [med] ∧
      ∀ j, a₁ j ≤ a₂ j ∧ a₂ j ≤ med j ∧ med j ≤ b₂ j ∧ b₂ j ≤ b₁ j := by
  have hx : (2 : K) ≤ (x.length : K) := by exact_mod_cast hn
  have hp1 : ∀ q ∈ [1 / 2 - l₁ / 100 / 2, 1 / 2 + l₁ / 100 / 2], 0 ≤ q ∧ q ≤ 1 := by
    intro q hq
    simp only [List.mem_cons, List.not_mem_nil, or_false] at hq
    rcases hq with rfl | rfl <;> constructor <;> linarith
  have hp2 : ∀ q ∈ [1 / 2 - l₂ / 100 / 2, 1 / 2 + l₂ / 100 / 2], 0 ≤ q ∧ q ≤ 1 := by
    intro q hq
    simp only [List.mem_cons, List.not_mem_nil, or_false] at hq
    rcases hq with rfl | rfl <;> constructor <;> linarith
  have hp3 : ∀ q ∈ [(1 / 2 : K)], 0 ≤ q ∧ q ≤ 1 := by
    intro q hq
    simp only [List.mem_cons, List.not_mem_nil, or_false] at hq
    subst hq; constructor <;> norm_num
  let Q : K → Fin c → K := fun q j =>
    interpAt ((x.map fun r => r j).insertionSort (· ≤ ·)) (((x.length : K) - 1) * q)
  refine ⟨Q (1 / 2 - l₁ / 100 / 2), Q (1 / 2 + l₁ / 100 / 2), Q (1 / 2 - l₂ / 100 / 2),
    Q (1 / 2 + l₂ / 100 / 2), Q (1 / 2), ?_, empiricalQuantiles_ok hn hp3, fun j => ?_⟩
  · simp only [convertLimits, List.map_cons, List.map_nil, List.mapM_cons, List.mapM_nil]
    rw [empiricalQuantiles_ok hn hp1, empiricalQuantiles_ok hn hp2]
    rfl
  · have hlen : ((x.map fun r => r j).insertionSort (· ≤ ·)).length = x.length := by simp
    have hm : ∀ q q' : K, 0 ≤ q → q ≤ q' → q' ≤ 1 →
        interpAt ((x.map fun r => r j).insertionSort (· ≤ ·)) (((x.length : K) - 1) * q) ≤
        interpAt ((x.map fun r => r j).insertionSort (· ≤ ·)) (((x.length : K) - 1) * q') := by
      intro q q' h0 hqq h1
      refine interpAt_mono (List.pairwise_insertionSort _ _) (by rw [hlen]; exact hn)
        (mul_nonneg (by linarith) h0) (mul_le_mul_of_nonneg_left hqq (by linarith)) ?_
      rw [hlen]
      have := mul_le_mul_of_nonneg_left h1 (show (0 : K) ≤ (x.length : K) - 1 by linarith)
      linarith
    exact ⟨hm _ _ (by linarith) (by linarith) (by linarith),
      hm _ _ (by linarith) (by linarith) (by linarith),
      hm _ _ (by linarith) (by linarith) (by linarith),
      hm _ _ (by linarith) (by linarith) (by linarith)⟩

/-- **C41, all bands of one plot.** Whatever order the user gives the limits in, every drawn band
contains all bands drawn after it. -/
theorem C41_bands {x : List (Fin c → K)} (hn : 2 ≤ x.length) {limits : Option (List K)}
    {default : List K} (hl : ∀ l ∈ limits.getD default, 0 ≤ l ∧ l ≤ 100) :
    ∃ bands, intervalBands x limits default = .ok bands ∧
      bands.length = (limits.getD default).length ∧
      bands.Pairwise fun B B' => ∃ a b a' b', B = [a, b] ∧ B' = [a', b'] ∧
        ∀ j, a j ≤ a' j ∧ a' j ≤ b' j ∧ b' j ≤ b j := by
  have hperm := List.perm_insertionSort (· ≥ ·) (limits.getD default)
  have hs : (checkIntervalLimits limits default).Pairwise (· ≥ ·) := List.pairwise_insertionSort _ _
  have hl' : ∀ l ∈ checkIntervalLimits limits default, 0 ≤ l ∧ l ≤ 100 := fun l h =>
    hl l (hperm.mem_iff.1 h)
  have hlen : (checkIntervalLimits limits default).length = (limits.getD default).length :=
    hperm.length_eq
  rw [← hlen]
  unfold intervalBands
  generalize checkIntervalLimits limits default = L at hs hl'
  clear hlen hperm hl
  have key : ∀ L : List K, (∀ l ∈ L, 0 ≤ l ∧ l ≤ 100) →
      (convertLimits L).mapM (empiricalQuantiles x) = .ok (L.map fun l =>
        [1 / 2 - l / 100 / 2, 1 / 2 + l / 100 / 2].map fun q => fun j =>
          interpAt ((x.map fun r => r j).insertionSort (· ≤ ·)) (((x.length : K) - 1) * q)) := by
    intro L hL
    induction L with
    | nil => rfl
    | cons l L ih =>
      have hl := hL l (by simp)
      have hp : ∀ q ∈ [1 / 2 - l / 100 / 2, 1 / 2 + l / 100 / 2], 0 ≤ q ∧ q ≤ 1 := by
        intro q hq
        simp only [List.mem_cons, List.not_mem_nil, or_false] at hq
        rcases hq with rfl | rfl <;> constructor <;> linarith [hl.1, hl.2]
      have ih' := ih fun l h => hL l (by simp [h])
      unfold convertLimits at ih' ⊢
      rw [List.map_cons, List.mapM_cons, empiricalQuantiles_ok hn hp, ih']
      rfl
  refine ⟨_, key L hl', by simp, ?_⟩
  rw [List.pairwise_map]
  refine List.Pairwise.imp_of_mem ?_ hs
  intro l₁ l₂ hm1 hm2 h12
  obtain ⟨a₁, b₁, a₂, b₂, med, he, -, hc⟩ :=
    C41_nested hn (hl' l₂ hm2).1 h12 (hl' l₁ hm1).2
  rw [key [l₁, l₂] (fun l h => by
    simp only [List.mem_cons, List.not_mem_nil, or_false] at h
    rcases h with rfl | rfl
    · exact hl' _ hm1
    · exact hl' _ hm2)] at he
  simp only [List.map_cons, List.map_nil, Except.ok.injEq, List.cons.injEq, and_true] at he
  obtain ⟨⟨rfl, rfl⟩, rfl, rfl⟩ := he
  exact ⟨_, _, _, _, rfl, rfl, fun j =>
    ⟨(hc j).1, (hc j).2.1.trans (hc j).2.2.1, (hc j).2.2.2⟩⟩

end

/-! ### Examples -/

example : ∃ x : List (Fin 1 → ℚ), 2 ≤ x.length ∧
    (empiricalQuantiles x [0, 1 / 4, 1 / 2, 1]).toOption.map (fun v => v.map fun r => r 0) =
      some [1, 2, 4, 9] := by
  refine ⟨[![4], ![9], ![1], ![2], ![6]], by decide, by decide +kernel⟩

example : ∃ x x' : List (Fin 1 → ℚ), x ≠ x' ∧ x.length = x'.length ∧
    ∀ j, (x.map fun r => r j).Perm (x'.map fun r => r j) := by
  refine ⟨[![4], ![9], ![1]], [![1], ![4], ![9]], by decide, rfl, fun j => ?_⟩
  fin_cases j
  decide

example : ((convertLimits [95, (50 : ℚ)]).mapM
    (empiricalQuantiles (c := 1) [![4], ![9], ![1], ![2], ![6]])).toOption.map
      (fun v => v.map fun q => q.map fun r => r 0) = some [[11 / 10, 87 / 10], [2, 6]] := by
  decide +kernel

/-! ### C46: bands of `PredictionIntervals` -/

section
variable {K : Type} [Field K] [LinearOrder K] [IsStrictOrderedRing K] [FloorSemiring K] {c : ℕ}

theorem drawnBands_nine {α : Type} (a b c d e f g h i : α) :
    drawnBands [a, b, c, d, e, f, g, h, i] false =
      .ok [(a, i, 99), (b, h, 95), (c, g, 90), (d, f, 50)] := by
  simp [drawnBands, setupCountingMetrics, setupLabels, List.range_succ, pyGet]
  rfl

theorem drawnBands_three {α : Type} (a b c : α) (pred : Bool) :
    drawnBands [a, b, c] pred = .ok [(a, c, 95)] := by
  cases pred <;> simp [drawnBands, setupCountingMetrics, setupLabels, List.range_succ, pyGet] <;> rfl

/-- **C46, full statement:** every drawn credible band runs from a level `lo` to a level `hi`
with `hi - lo` the probability in its label and `lo + hi = 1`, for all settings of the class.
**Proved here:** this holds for every band except the one labelled 90 % that is drawn without
error variances (see `C46_label_refuted`).  `s2` says whether error variances are used, `pred`
whether prediction intervals are plotted (only possible with error variances). -/
theorem C46_levels_partial (s2 pred : Bool) (h : pred = true → s2 = true) :
    ∃ bands, drawnBands (setupIntervalLimits (K := K) s2) pred = .ok bands ∧ bands ≠ [] ∧
      ∀ B ∈ bands, (s2 = false ∧ B.2.2 = 90) ∨
        (B.2.1 - B.1 = (B.2.2 : K) / 100 ∧ B.1 + B.2.1 = 1) := by
  cases s2 with
  | true =>
    refine ⟨_, drawnBands_three _ _ _ pred, by simp, fun B hB => Or.inr ?_⟩
    simp only [List.mem_cons, List.not_mem_nil, or_false] at hB
    subst hB
    norm_num
  | false =>
    have hp : pred = false := by cases pred; rfl; exact absurd (h rfl) (by simp)
    subst hp
    refine ⟨_, drawnBands_nine _ _ _ _ _ _ _ _ _, by simp, fun B hB => ?_⟩
    simp only [List.mem_cons, List.not_mem_nil, or_false] at hB
    rcases hB with rfl | rfl | rfl | rfl
    · right; norm_num
    · right; norm_num
    · left; simp
    · right; norm_num

/-- **C46 is false for the 90 % band.** Without error variances the band labelled 90 % runs from
level 0.05 to level 0.9: nominal probability 0.85, not symmetric about the median. -/
theorem C46_label_refuted :
    ∃ bands : List (K × K × ℕ), drawnBands (setupIntervalLimits (K := K) false) false = .ok bands ∧
      ∃ B ∈ bands, B.2.2 = 90 ∧ B.2.1 - B.1 = 85 / 100 ∧ B.1 + B.2.1 ≠ 1 := by
  refine ⟨_, drawnBands_nine _ _ _ _ _ _ _ _ _, (5 / 100, 9 / 10, 90), by simp, rfl, ?_, ?_⟩ <;>
    norm_num

/-- **C46, nesting.** For every sample of at least two responses the curves computed with the
limits of the class give bands each of which contains the bands drawn after it, and all contain
the curve drawn as the median. -/
theorem C46_nested {x : List (Fin c → K)} (hn : 2 ≤ x.length) (s2 pred : Bool)
    (h : pred = true → s2 = true) :
    ∃ lines bands med, empiricalQuantiles x (setupIntervalLimits s2) = .ok lines ∧
      drawnBands lines pred = .ok bands ∧
      lines[(setupCountingMetrics lines.length).1 - 1]? = some med ∧
      empiricalQuantiles x [1 / 2] = .ok [med] ∧
      (bands.Pairwise fun B B' => ∀ j, B.1 j ≤ B'.1 j ∧ B'.2.1 j ≤ B.2.1 j) ∧
      ∀ B ∈ bands, ∀ j, B.1 j ≤ med j ∧ med j ≤ B.2.1 j := by
  let Q : K → Fin c → K := fun q j =>
    interpAt ((x.map fun r => r j).insertionSort (· ≤ ·)) (((x.length : K) - 1) * q)
  have hx : (2 : K) ≤ (x.length : K) := by exact_mod_cast hn
  have hm : ∀ q q' : K, 0 ≤ q → q ≤ q' → q' ≤ 1 → ∀ j, Q q j ≤ Q q' j := by
    intro q q' h0 hqq h1 j
    have hlen : ((x.map fun r => r j).insertionSort (· ≤ ·)).length = x.length := by simp
    refine interpAt_mono (List.pairwise_insertionSort _ _) (by rw [hlen]; exact hn)
      (mul_nonneg (by linarith) h0) (mul_le_mul_of_nonneg_left hqq (by linarith)) ?_
    rw [hlen]
    have := mul_le_mul_of_nonneg_left h1 (show (0 : K) ≤ (x.length : K) - 1 by linarith)
    linarith
  have hok : ∀ p : List K, (∀ q ∈ p, 0 ≤ q ∧ q ≤ 1) → empiricalQuantiles x p = .ok (p.map Q) :=
    fun p hp => empiricalQuantiles_ok hn hp
  have hmed : empiricalQuantiles x [1 / 2] = .ok [Q (1 / 2)] := hok [1 / 2] (by
    intro q hq
    simp only [List.mem_cons, List.not_mem_nil, or_false] at hq
    subst hq; constructor <;> norm_num)
  cases s2 with
  | true =>
    refine ⟨_, _, _, hok _ ?_, drawnBands_three _ _ _ pred,
      by simp [setupIntervalLimits, setupCountingMetrics], hmed, by simp, ?_⟩
    · intro q hq
      simp only [setupIntervalLimits, if_true, List.mem_cons, List.not_mem_nil, or_false] at hq
      rcases hq with rfl | rfl | rfl <;> constructor <;> norm_num
    · intro B hB j
      simp only [List.mem_cons, List.not_mem_nil, or_false] at hB
      subst hB
      exact ⟨hm _ _ (by norm_num) (by norm_num) (by norm_num) j,
        hm _ _ (by norm_num) (by norm_num) (by norm_num) j⟩
  | false =>
    have hp : pred = false := by cases pred; rfl; exact absurd (h rfl) (by simp)
    subst hp
    refine ⟨_, _, _, hok _ ?_, drawnBands_nine _ _ _ _ _ _ _ _ _,
      by simp [setupIntervalLimits, setupCountingMetrics], hmed, ?_, ?_⟩
    · intro q hq
      simp only [setupIntervalLimits, Bool.false_eq_true, if_false, List.mem_cons,
        List.not_mem_nil, or_false] at hq
      rcases hq with rfl | rfl | rfl | rfl | rfl | rfl | rfl | rfl | rfl <;>
        constructor <;> norm_num
    · simp only [List.pairwise_cons, List.mem_cons, List.not_mem_nil, or_false,
        forall_eq_or_imp, forall_eq, List.Pairwise.nil, and_true, IsEmpty.forall_iff,
        implies_true]
      refine ⟨⟨?_, ?_, ?_⟩, ⟨?_, ?_⟩, ?_⟩ <;> intro j <;>
        exact ⟨hm _ _ (by norm_num) (by norm_num) (by norm_num) j,
          hm _ _ (by norm_num) (by norm_num) (by norm_num) j⟩
    · intro B hB j
      simp only [List.mem_cons, List.not_mem_nil, or_false] at hB
      rcases hB with rfl | rfl | rfl | rfl <;>
        exact ⟨hm _ _ (by norm_num) (by norm_num) (by norm_num) j,
          hm _ _ (by norm_num) (by norm_num) (by norm_num) j⟩

end

example : (drawnBands (setupIntervalLimits (K := ℚ) false) false).toOption =
    some [(1 / 200, 199 / 200, 99), (1 / 40, 39 / 40, 95), (1 / 20, 9 / 10, 90),
      (1 / 4, 3 / 4, 50)] := by decide +kernel

end Verif
