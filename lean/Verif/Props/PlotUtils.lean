import Verif.Model.PlotUtils
import Verif.Lemmas.Basic
import Verif.Lemmas.Decimal
import Verif.Spec.Toy
import Mathlib.Tactic.Linarith
import Mathlib.Tactic.FieldSimp
import Mathlib.Tactic.NormNum
import Mathlib.Tactic.Ring
import Mathlib.LinearAlgebra.Matrix.NonsingularInverse
import Mathlib.LinearAlgebra.Matrix.Notation
import Mathlib.LinearAlgebra.Matrix.Determinant.Basic

/-!
# Properties C47, C48, C50, C55 – C57, C62: plotting and general utilities
-/

set_option linter.unusedSectionVars false

namespace Verif

/-! ### C47: subsampling -/

theorem npArange_ok {n skip : ℕ} (h : skip ≠ 0) :
    npArange n skip = .ok ((List.range ((n + skip - 1) / skip)).map (· * skip)) := by
  unfold npArange; rw [if_neg h]

/-- **C47, full statement:** the selected rows are valid, increasing, equally spaced, start at row
0 and are at most `maxpoints`.  **Proved here:** all of it except the bound when `maxpoints` does
not divide the chain length; in general fewer than `2 * maxpoints` rows are selected.  See
`C47_maximum_refuted`. -/
theorem C47_rows_partial {skip maxpoints nsimu : ℕ} (hs : 1 ≤ skip) (hm : 1 ≤ maxpoints)
    (hn : 1 ≤ nsimu) :
    ∃ inds step, setupSubsample skip maxpoints nsimu = .ok inds ∧ 1 ≤ step ∧
      (∀ i (h : i < inds.length), inds[i] = i * step) ∧
      inds[0]? = some 0 ∧ (∀ i ∈ inds, i < nsimu) ∧ nsimu ≤ inds.length * step ∧
      inds.length < 2 * maxpoints ∧ (nsimu ≤ maxpoints → inds.length ≤ maxpoints) ∧
      (maxpoints ∣ nsimu → inds.length ≤ maxpoints) := by
  have main : ∀ step, 1 ≤ step → ∀ inds, npArange nsimu step = .ok inds →
      inds.length = (nsimu + step - 1) / step ∧
      (∀ i (h : i < inds.length), inds[i] = i * step) ∧
      inds[0]? = some 0 ∧ (∀ i ∈ inds, i < nsimu) ∧ nsimu ≤ inds.length * step := by
    intro step h1 inds h
    rw [npArange_ok (by omega)] at h
    cases h
    have hlen : ∀ k, k < (nsimu + step - 1) / step ↔ k * step < nsimu := by
      intro k
      rw [← Nat.add_one_le_iff, Nat.le_div_iff_mul_le (by omega), Nat.add_mul]
      omega
    refine ⟨by simp, by simp, ?_, ?_, ?_⟩
    · rw [List.getElem?_map, List.getElem?_range ((hlen 0).2 (by omega))]; simp
    · intro i hi
      simp only [List.mem_map, List.mem_range] at hi
      obtain ⟨k, hk, rfl⟩ := hi
      exact (hlen k).1 hk
    · simp only [List.length_map, List.length_range]
      by_contra hc
      exact absurd ((hlen _).2 (not_le.1 hc)) (lt_irrefl _)
  unfold setupSubsample
  by_cases h : maxpoints < nsimu
  · rw [if_pos h, if_neg (by omega)]
    have hq : 1 ≤ nsimu / maxpoints := (Nat.one_le_div_iff (by omega)).2 h.le
    obtain ⟨inds, hi⟩ : ∃ inds, npArange nsimu (nsimu / maxpoints) = .ok inds :=
      ⟨_, npArange_ok (by omega)⟩
    obtain ⟨h1, h2, h3, h4, h5⟩ := main _ hq inds hi
    have hdm := Nat.div_add_mod nsimu maxpoints
    have hmod := Nat.mod_lt nsimu (show 0 < maxpoints by omega)
    refine ⟨inds, _, hi, hq, h2, h3, h4, h5, ?_, fun hc => by omega, fun hdvd => ?_⟩
    · rw [h1, Nat.div_lt_iff_lt_mul (by omega)]
      generalize nsimu / maxpoints = q at *
      obtain ⟨m, rfl⟩ : ∃ m, maxpoints = m + 1 := ⟨maxpoints - 1, by omega⟩
      obtain ⟨q, rfl⟩ : ∃ q', q = q' + 1 := ⟨q - 1, by omega⟩
      generalize nsimu % (m + 1) = r at *
      have hmq : 0 ≤ m * q := Nat.zero_le _
      have e : nsimu + (q + 1) - 1 = nsimu + q := by omega
      rw [e]
      nlinarith
    · rw [h1]
      have hm0 : nsimu % maxpoints = 0 := Nat.mod_eq_zero_of_dvd hdvd
      rw [← Nat.lt_add_one_iff, Nat.div_lt_iff_lt_mul (by omega)]
      rw [hm0] at hdm
      generalize nsimu / maxpoints = q at *
      obtain ⟨q, rfl⟩ : ∃ q', q = q' + 1 := ⟨q - 1, by omega⟩
      have e : nsimu + (q + 1) - 1 = nsimu + q := by omega
      rw [e]
      nlinarith
  · rw [if_neg h]
    obtain ⟨inds, hi⟩ : ∃ inds, npArange nsimu skip = .ok inds := ⟨_, npArange_ok (by omega)⟩
    obtain ⟨h1, h2, h3, h4, h5⟩ := main _ hs inds hi
    have hle : inds.length ≤ nsimu := by
      rw [h1, ← Nat.lt_add_one_iff, Nat.div_lt_iff_lt_mul (by omega)]
      obtain ⟨k, rfl⟩ : ∃ k, skip = k + 1 := ⟨skip - 1, by omega⟩
      have e : nsimu + (k + 1) - 1 = nsimu + k := by omega
      rw [e]
      nlinarith
    exact ⟨inds, _, hi, hs, h2, h3, h4, h5, by omega, fun _ => by omega, fun _ => by omega⟩

/-- **C47 is false whenever `maxpoints` does not divide a longer chain's length.** More than
`maxpoints` rows are selected. -/
theorem C47_maximum_refuted {skip maxpoints nsimu : ℕ} (hm : 1 ≤ maxpoints)
    (hn : maxpoints < nsimu) (hd : ¬ maxpoints ∣ nsimu) :
    ∃ inds, setupSubsample skip maxpoints nsimu = .ok inds ∧ maxpoints < inds.length := by
  have hq : 1 ≤ nsimu / maxpoints := (Nat.one_le_div_iff (by omega)).2 hn.le
  unfold setupSubsample
  rw [if_pos hn, if_neg (by omega), npArange_ok (by omega)]
  refine ⟨_, rfl, ?_⟩
  simp only [List.length_map, List.length_range]
  have hdm := Nat.div_add_mod nsimu maxpoints
  have hmod : 0 < nsimu % maxpoints := Nat.pos_of_ne_zero fun h => hd (Nat.dvd_of_mod_eq_zero h)
  rw [← Nat.add_one_le_iff, Nat.le_div_iff_mul_le (by omega)]
  generalize nsimu / maxpoints = q at *
  have e : (maxpoints + 1) * q = maxpoints * q + q := by ring
  rw [e]
  omega

example : (setupSubsample 1 3 10).toOption = some [0, 3, 6, 9] ∧
    (setupSubsample 2 10 7).toOption = some [0, 2, 4, 6] ∧ ¬ 3 ∣ 10 := by decide

/-! ### C48: subplot grid -/

theorem grid_eq (n : ℕ) : generateSubplotGrid n =
    (if Nat.sqrt n * Nat.sqrt n = n then (Nat.sqrt n : ℤ) else Nat.sqrt n + 1,
      if n ≤ Nat.sqrt n * Nat.sqrt n + Nat.sqrt n then (Nat.sqrt n : ℤ) else Nat.sqrt n + 1) := by
  have h1 := Nat.sqrt_le n
  have hle : (Nat.sqrt n : ℝ) ≤ √(n : ℝ) := Real.nat_sqrt_le_real_sqrt
  have hlt : √(n : ℝ) < Nat.sqrt n + 1 := Real.real_sqrt_lt_nat_sqrt_succ
  have hfl : ⌊√(n : ℝ)⌋ = (Nat.sqrt n : ℤ) := Real.floor_real_sqrt_eq_nat_sqrt
  have hsq : √(n : ℝ) * √(n : ℝ) = n := Real.mul_self_sqrt (by positivity)
  have hnn : 0 ≤ √(n : ℝ) := Real.sqrt_nonneg _
  have hfr : Int.fract √(n : ℝ) = √(n : ℝ) - Nat.sqrt n := by
    rw [Int.fract, hfl]; push_cast; rfl
  generalize hs : Nat.sqrt n = s at *
  have hs0 : (0 : ℝ) ≤ (s : ℝ) := by positivity
  unfold generateSubplotGrid
  refine Prod.ext ?_ ?_
  · dsimp only
    split
    · rename_i he
      have : √(n : ℝ) = s := by
        have : ((s : ℝ) * s) = n := by exact_mod_cast he
        rw [← this, Real.sqrt_mul_self hs0]
      rw [this, Int.ceil_natCast]
    · rename_i he
      rw [Int.ceil_eq_iff]
      push_cast
      refine ⟨?_, hlt.le⟩
      rcases hle.lt_or_eq with h | h
      · linarith
      · exfalso
        apply he
        rw [← h] at hsq
        exact_mod_cast hsq
  · dsimp only
    unfold pyRound
    rw [hfr, hfl]
    by_cases hk : n ≤ s * s + s
    · rw [if_pos hk]
      have hk' : (n : ℝ) ≤ s * s + s := by exact_mod_cast hk
      rw [if_pos]
      by_contra hc
      have : (s : ℝ) + 1 / 2 ≤ √(n : ℝ) := by linarith
      nlinarith
    · rw [if_neg hk]
      have hk' : (s : ℝ) * s + s + 1 ≤ n := by exact_mod_cast not_le.1 hk
      have hgt : 1 / 2 < √(n : ℝ) - s := by
        by_contra hc
        have : √(n : ℝ) ≤ s + 1 / 2 := by linarith
        nlinarith
      rw [if_neg (by linarith), if_pos hgt]

/-- **C48.** The grid for `n` panels has at least `n` cells, and dropping a row or a column would
leave fewer than `n` cells (so no row or column stays empty when the cells are filled one after
the other). -/
theorem C48_grid (n : ℕ) (hn : 1 ≤ n) :
    (n : ℤ) ≤ (generateSubplotGrid n).1 * (generateSubplotGrid n).2 ∧
    ((generateSubplotGrid n).1 - 1) * (generateSubplotGrid n).2 < n ∧
    (generateSubplotGrid n).1 * ((generateSubplotGrid n).2 - 1) < n ∧
    1 ≤ (generateSubplotGrid n).1 ∧ 1 ≤ (generateSubplotGrid n).2 := by
  have h1 := Nat.sqrt_le n
  have h2 := Nat.lt_succ_sqrt n
  have h3 : 1 ≤ Nat.sqrt n := Nat.le_sqrt.2 (by omega)
  rw [Nat.succ_eq_add_one] at h2
  rw [grid_eq]
  generalize Nat.sqrt n = s at *
  dsimp only
  split <;> split
  · rename_i ha hb
    zify at ha
    refine ⟨?_, ?_, ?_, ?_, ?_⟩ <;> nlinarith
  · rename_i ha hb
    omega
  · rename_i ha hb
    zify at ha hb h1 h2 h3
    have : (s : ℤ) * s + 1 ≤ n := by omega
    refine ⟨?_, ?_, ?_, ?_, ?_⟩ <;> nlinarith
  · rename_i ha hb
    zify at ha hb h1 h2 h3
    rw [not_le] at hb
    refine ⟨?_, ?_, ?_, ?_, ?_⟩ <;> nlinarith

example : generateSubplotGrid 7 = (3, 3) ∧ generateSubplotGrid 5 = (3, 2) ∧
    generateSubplotGrid 2 = (2, 1) := by
  have e7 : Nat.sqrt 7 = 2 := by decide +kernel
  have e5 : Nat.sqrt 5 = 2 := by decide +kernel
  have e2 : Nat.sqrt 2 = 1 := by decide +kernel
  refine ⟨?_, ?_, ?_⟩ <;> rw [grid_eq] <;> simp [e7, e5, e2]

/-! ### C57: names -/

theorem defaultName_injective {a b : ℕ} (h : defaultName a = defaultName b) : a = b := by
  unfold defaultName at h
  rw [List.append_assoc, List.append_assoc] at h
  have h1 := List.append_cancel_left h
  exact dec_injective (List.append_cancel_right h1)

/-- **C57.** For every list of names (or none) and every number of parameters: at least one name
per parameter, the user's names come first and in order, and the completed names are pairwise
different default names: a parameter `k` without a name is called `$p_{k}$`. -/
theorem C57_names (nparam : ℕ) (names : Option (List (List Char))) :
    nparam ≤ (generateNames nparam names).length ∧
    ∃ added, generateNames nparam names = names.getD [] ++ added ∧ added.Nodup ∧
      (names.getD []).length + added.length = max nparam (names.getD []).length ∧
      ∀ k, (names.getD []).length ≤ k → k < nparam → (generateNames nparam names)[k]? =
        some ("$p_{".toList ++ Nat.toDigits 10 k ++ "}$".toList) := by
  have hnd : ∀ a k, ((List.range' a k).map defaultName).Nodup := fun a k =>
    (List.nodup_range' (s := a) (n := k)).map fun _ _ h => defaultName_injective h
  unfold generateNames
  cases names with
  | none =>
    have hl : (generateDefaultNames nparam).length = nparam := by simp [generateDefaultNames]
    simp only [Option.getD_none, hl, ne_eq, not_true_eq_false, if_false]
    refine ⟨le_refl _, generateDefaultNames nparam, by simp, ?_, by simp [hl], ?_⟩
    · unfold generateDefaultNames
      rw [List.range_eq_range']
      exact hnd 0 nparam
    · intro k _ hk
      simp [generateDefaultNames, hk, defaultName, dec]
  | some l =>
    simp only [Option.getD_some]
    split
    · unfold extendNames
      simp only [Option.getD_some]
      refine ⟨by simp; omega, _, rfl, hnd _ _, by simp; omega, ?_⟩
      intro k h1 h2
      rw [List.getElem?_append_right h1, List.getElem?_map, List.getElem?_range' (by omega)]
      simp only [Option.map_some, defaultName, dec]
      rw [show l.length + 1 * (k - l.length) = k by omega]
    · rename_i h
      have h' : l.length = nparam := by simpa using h
      exact ⟨by omega, [], by simp, by simp, by simp; omega, fun k h1 h2 => by omega⟩

example : generateNames 3 (some ["a".toList]) = ["a".toList, "$p_{1}$".toList, "$p_{2}$".toList] ∧
    generateNames 1 (some ["a".toList, "b".toList]) = ["a".toList, "b".toList] ∧
    generateNames 2 none = ["$p_{0}$".toList, "$p_{1}$".toList] := by decide

/-! ### C50: light results -/

section
variable {κ V : Type} [DecidableEq κ]

theorem removeKeys_ok : ∀ {ks : List κ} {h h' : Store κ V} {d d' : ℕ},
    removeKeys h d ks = .ok (h', d') →
    (∃ new, h' = h ++ new) ∧ ∃ entries, (ks ≠ [] → h[d]? = some entries) ∧
      (h[d]? = some entries → h'[d']? = some (entries.filter fun e => e.1 ∉ ks)) ∧
      (h[d]? = some entries → ∀ k ∈ ks, k ∈ entries.map Prod.fst) ∧
      (ks ≠ [] → h.length ≤ d') := by
  intro ks
  induction ks with
  | nil =>
    intro h h' d d' hr
    cases hr
    refine ⟨⟨[], by simp⟩, (h[d]?).getD [], by simp, fun he => by simpa using he, by simp, by simp⟩
  | cons k ks ih =>
    intro h h' d d' hr
    unfold removeKeys at hr
    obtain ⟨⟨h1, d1⟩, h2, hr⟩ := bind_ok.1 hr
    unfold removekey at h2
    obtain ⟨entries, he, h2⟩ := bind_ok.1 h2
    rw [pyGet_ok] at he
    split at h2
    · rename_i hk
      cases h2
      dsimp only at hr
      obtain ⟨⟨new, hnew⟩, ent, ha, hb, hc, hd⟩ := ih hr
      have hent : (h ++ [entries.filter fun e => e.1 ≠ k])[h.length]? =
          some (entries.filter fun e => e.1 ≠ k) := by simp
      refine ⟨⟨_ :: new, by rw [hnew, List.append_assoc]; rfl⟩, entries, fun _ => he, fun _ => ?_,
        fun _ k' hk' => ?_, fun _ => ?_⟩
      · by_cases hks : ks = []
        · subst hks
          cases hr
          rw [hent]
          congr 1
          simp
        · have e := ha hks
          rw [hent] at e
          cases e
          rw [hb hent, List.filter_filter]
          congr 1
          refine List.filter_congr fun e _ => ?_
          simp [not_or, Bool.and_comm]
      · rcases List.mem_cons.1 hk' with rfl | hk''
        · exact hk
        · have e := ha (List.ne_nil_of_mem hk'')
          rw [hent] at e
          cases e
          have := hc hent k' hk''
          simp only [List.mem_map, List.mem_filter] at this ⊢
          obtain ⟨e, ⟨he', -⟩, hee⟩ := this
          exact ⟨e, he', hee⟩
      · by_cases hks : ks = []
        · subst hks; cases hr; exact le_refl _
        · have := hd hks
          simp at this
          omega
    · cases h2

/-- **C50.** If `lighten_results` returns, the new dictionary has exactly the entries of the full
one except those with key `chain`, `s2chain` and `sschain`, with the same values and in the same
order; it is a new object, and every dictionary that existed before (the full one in particular)
is unchanged. -/
theorem C50_light {h h' : Store String V} {d d' : ℕ} (hr : lightenResults h d = .ok (h', d')) :
    ∃ full light, h[d]? = some full ∧ h'[d']? = some light ∧
      light = full.filter (fun e => e.1 ∉ ["chain", "s2chain", "sschain"]) ∧
      h.length ≤ d' ∧ ∀ i < h.length, h'[i]? = h[i]? := by
  obtain ⟨⟨new, hnew⟩, full, ha, hb, -, hd⟩ := removeKeys_ok hr
  have hf := ha (by simp)
  refine ⟨full, _, hf, hb hf, rfl, hd (by simp), fun i hi => ?_⟩
  rw [hnew, List.getElem?_append_left hi]

/-- **C50, when it returns.** A dictionary with the three keys can always be lightened; if one is
missing `KeyError` is raised. -/
theorem C50_total {h : Store String V} {d : ℕ} {full : List (String × V)}
    (hf : h[d]? = some full) :
    (∃ r, lightenResults h d = .ok r) ↔
      ∀ k ∈ ["chain", "s2chain", "sschain"], k ∈ full.map Prod.fst := by
  constructor
  · rintro ⟨⟨h', d'⟩, hr⟩
    obtain ⟨-, full', ha, -, hc, -⟩ := removeKeys_ok hr
    have hf' := ha (by simp)
    rw [hf] at hf'
    cases hf'
    exact hc hf
  · intro hk
    have key : ∀ (ks : List String), ks.Nodup → ∀ (h : Store String V) (d : ℕ)
        (full : List (String × V)), h[d]? = some full → (∀ k ∈ ks, k ∈ full.map Prod.fst) →
        ∃ r, removeKeys h d ks = .ok r := by
      intro ks hnd
      induction ks with
      | nil => intro h d full _ _; exact ⟨_, rfl⟩
      | cons k ks ih =>
        intro h d full hf hk
        rw [List.nodup_cons] at hnd
        unfold removeKeys removekey
        rw [(pyGet_ok (l := h)).2 hf, ok_bind, if_pos (hk k (by simp)), ok_bind]
        refine ih hnd.2 _ _ (full.filter fun e => e.1 ≠ k) (by simp) fun k' hk' => ?_
        have := hk k' (by simp [hk'])
        simp only [List.mem_map, List.mem_filter] at this ⊢
        obtain ⟨e, he, rfl⟩ := this
        refine ⟨e, ⟨he, ?_⟩, rfl⟩
        have : e.1 ≠ k := fun h => hnd.1 (h ▸ hk')
        simpa using this
    exact key _ (by decide) h d full hf hk

end

example : (lightenResults [[("x", 0)], [("chain", 1), ("nsimu", 5), ("s2chain", 2), ("qcov", 4),
    ("sschain", 3)]] 1).toOption.map (fun r => (r.1[r.2]?, r.1[1]?.map List.length)) =
    some (some [("nsimu", 5), ("qcov", 4)], some 5) ∧
    (lightenResults [[("chain", 1)]] 0).toOption = none := by decide +kernel

/-! ### C56: interquartile range -/

section
variable {K : Type} [Field K] [LinearOrder K] [IsStrictOrderedRing K]

theorem iqrange_of_lt {x : List K} (h : 8 ≤ x.length) :
    ∃ (h1 : (x.length + 1) / 4 + 1 < x.length) (h3 : 3 * (x.length + 1) / 4 + 1 < x.length),
    iqrange x = .ok (((1 - (3 / 4 * ((x.length : K) + 1) - (3 * (x.length + 1) / 4 : ℕ))) *
        x[3 * (x.length + 1) / 4] +
      (3 / 4 * ((x.length : K) + 1) - (3 * (x.length + 1) / 4 : ℕ)) * x[3 * (x.length + 1) / 4 + 1]) -
      ((1 - (((x.length : K) + 1) / 4 - ((x.length + 1) / 4 : ℕ))) * x[(x.length + 1) / 4] +
      (((x.length : K) + 1) / 4 - ((x.length + 1) / 4 : ℕ)) * x[(x.length + 1) / 4 + 1])) := by
  have h1 : (x.length + 1) / 4 + 1 < x.length := by omega
  have h3 : 3 * (x.length + 1) / 4 + 1 < x.length := by omega
  refine ⟨h1, h3, ?_⟩
  unfold iqrange
  simp only [pyGet, List.getElem?_eq_getElem h1, List.getElem?_eq_getElem h3,
    List.getElem?_eq_getElem (show (x.length + 1) / 4 < x.length by omega),
    List.getElem?_eq_getElem (show 3 * (x.length + 1) / 4 < x.length by omega), ok_bind]

/-- the interpolation weights lie in `[0,1)` -/
theorem iq_weights (n : ℕ) :
    (0 : K) ≤ ((n : K) + 1) / 4 - ((n + 1) / 4 : ℕ) ∧ ((n : K) + 1) / 4 - ((n + 1) / 4 : ℕ) < 1 ∧
    (0 : K) ≤ 3 / 4 * ((n : K) + 1) - (3 * (n + 1) / 4 : ℕ) ∧
    3 / 4 * ((n : K) + 1) - (3 * (n + 1) / 4 : ℕ) < 1 := by
  have a1 : ((n + 1) / 4) * 4 ≤ n + 1 := Nat.div_mul_le_self _ _
  have a2 : n + 1 < ((n + 1) / 4) * 4 + 4 := by omega
  have b1 : (3 * (n + 1) / 4) * 4 ≤ 3 * (n + 1) := Nat.div_mul_le_self _ _
  have b2 : 3 * (n + 1) < (3 * (n + 1) / 4) * 4 + 4 := by omega
  generalize (n + 1) / 4 = i at *
  generalize 3 * (n + 1) / 4 = j at *
  have a1' : (i : K) * 4 ≤ n + 1 := by exact_mod_cast a1
  have a2' : (n : K) + 1 < i * 4 + 4 := by exact_mod_cast a2
  have b1' : (j : K) * 4 ≤ 3 * (n + 1) := by exact_mod_cast b1
  have b2' : 3 * ((n : K) + 1) < j * 4 + 4 := by exact_mod_cast b2
  refine ⟨?_, ?_, ?_, ?_⟩ <;> linarith

/-- **C56, full statement:** the interquartile range is non-negative and the same for every
ordering of the sample.  **Proved here:** it exists for at least eight values and is non-negative
when the sample is given in increasing order.  The rest is false, see `C56_order_refuted` and
`C56_small_refuted`. -/
theorem C56_sorted_partial {x : List K} (h : 8 ≤ x.length) (hs : x.Pairwise (· ≤ ·)) :
    ∃ q, iqrange x = .ok q ∧ 0 ≤ q := by
  obtain ⟨h1, h3, he⟩ := iqrange_of_lt h
  refine ⟨_, he, ?_⟩
  obtain ⟨w1, w2, w3, w4⟩ := iq_weights (K := K) x.length
  have hp := List.pairwise_iff_getElem.1 hs
  have hlt : (x.length + 1) / 4 + 1 < 3 * (x.length + 1) / 4 := by omega
  have e1 := hp ((x.length + 1) / 4) ((x.length + 1) / 4 + 1) (by omega) h1 (by omega)
  have e2 := hp ((x.length + 1) / 4 + 1) (3 * (x.length + 1) / 4) (by omega) (by omega) hlt
  have e3 := hp (3 * (x.length + 1) / 4) (3 * (x.length + 1) / 4 + 1) (by omega) h3 (by omega)
  generalize ((x.length : K) + 1) / 4 - ((x.length + 1) / 4 : ℕ) = f1 at *
  generalize 3 / 4 * ((x.length : K) + 1) - (3 * (x.length + 1) / 4 : ℕ) = f3 at *
  generalize x[(x.length + 1) / 4] = a at *
  generalize x[(x.length + 1) / 4 + 1] = b at *
  generalize x[3 * (x.length + 1) / 4] = c at *
  generalize x[3 * (x.length + 1) / 4 + 1] = d at *
  have k1 : (1 - f1) * a + f1 * b ≤ b := by nlinarith
  have k2 : c ≤ (1 - f3) * c + f3 * d := by nlinarith
  linarith

/-- **C56 is false for every sample size from eight on.** There is a sample whose interquartile
range is negative, while a reordering of the same values has a non-negative one. -/
theorem C56_order_refuted (n : ℕ) (hn : 8 ≤ n) :
    ∃ x y : List K, x.length = n ∧ x.Perm y ∧
      ∃ q r, iqrange x = .ok q ∧ iqrange y = .ok r ∧ q < 0 ∧ 0 ≤ r := by
  let x : List K := (List.replicate n 0).set ((n + 1) / 4) 1
  have hlen : x.length = n := by simp [x]
  have hperm : x.Perm (x.insertionSort (· ≤ ·)) := (List.perm_insertionSort _ _).symm
  obtain ⟨r, hr, hr0⟩ := C56_sorted_partial (x := x.insertionSort (· ≤ ·))
    (by rw [← hperm.length_eq, hlen]; exact hn) (List.pairwise_insertionSort _ _)
  obtain ⟨h1, h3, he⟩ := iqrange_of_lt (x := x) (by omega)
  refine ⟨x, _, hlen, hperm, _, r, he, hr, ?_, hr0⟩
  have hget : ∀ i (h : i < x.length), x[i] = if i = (n + 1) / 4 then 1 else 0 := by
    intro i h
    simp only [x, List.getElem_set, List.getElem_replicate]
    simp only [eq_comm]
  obtain ⟨w1, w2, w3, w4⟩ := iq_weights (K := K) x.length
  have g1 : x[(x.length + 1) / 4] = 1 := by rw [hget, if_pos (by rw [hlen])]
  have g2 : x[(x.length + 1) / 4 + 1] = 0 := by rw [hget, if_neg (by rw [hlen]; omega)]
  have g3 : x[3 * (x.length + 1) / 4] = 0 := by rw [hget, if_neg (by rw [hlen]; omega)]
  have g4 : x[3 * (x.length + 1) / 4 + 1] = 0 := by rw [hget, if_neg (by rw [hlen]; omega)]
  rw [g1, g2, g3, g4]
  linarith

/-- **C56 is false for small samples.** With two to seven values the function raises
`IndexError`. -/
theorem C56_small_refuted {x : List K} (h2 : 2 ≤ x.length) (h7 : x.length ≤ 7) :
    iqrange x = .error .indexError := by
  have hno : ∀ i, x.length ≤ i → pyGet x i = .error .indexError := by
    intro i hi; unfold pyGet; rw [List.getElem?_eq_none hi]
  have hyes : ∀ i (h : i < x.length), pyGet x i = .ok x[i] := by
    intro i hi; unfold pyGet; rw [List.getElem?_eq_getElem hi]
  unfold iqrange
  dsimp only
  rw [hyes ((x.length + 1) / 4) (by omega), ok_bind]
  by_cases h : (x.length + 1) / 4 + 1 < x.length
  · rw [hyes _ h, ok_bind]
    by_cases h' : 3 * (x.length + 1) / 4 < x.length
    · rw [hyes _ h', ok_bind, hno _ (by omega)]; rfl
    · rw [hno _ (by omega)]; rfl
  · rw [hno _ (by omega)]; rfl

end

example : (iqrange [1, 2, 3, 4, 5, 6, 7, (8 : ℚ)]).toOption = some (9 / 2) ∧
    (iqrange [5, 2, 8, 4, 6, 1, 3, (7 : ℚ)]).toOption = some (-1) := by decide +kernel

/-! ### C62: progress bar -/

theorem dec_length_le_three {n : ℕ} (h : n ≤ 100) : (dec n).length ≤ 3 := by
  by_cases h1 : n < 10
  · rw [dec_lt_base h1]; simp
  · rw [dec_step (by omega)]
    by_cases h2 : n / 10 < 10
    · rw [dec_lt_base h2]; simp
    · rw [dec_step (by omega), dec_lt_base (by omega)]; simp

/-- **C62, full statement:** the progress bar has the same width at every iteration.
**Proved here:** whenever at most `iterations` is displayed the bar between the brackets is 38
characters wide; this covers every update except a delayed update in the last iteration, for
which see `C62_last_refuted`. -/
theorem C62_width_partial {iterations i : ℕ} {late : Bool} {shown : ℕ}
    (hu : progressUpdate iterations i late = some shown) (hi : i < iterations)
    (hlast : late = true → i + 1 < iterations) :
    ∃ bar, progressBar shown iterations = .ok bar ∧ bar.length = 38 := by
  have hs : shown ≤ iterations := by
    unfold progressUpdate at hu
    split at hu
    · rename_i hl; cases hu; have := hlast hl; omega
    · split at hu
      · cases hu; omega
      · cases hu
  have hpos : 0 < iterations := by omega
  have h1 : 38 * shown / iterations ≤ 38 := by
    rw [Nat.div_le_iff_le_mul_add_pred hpos]; nlinarith
  have h2 : 100 * shown / iterations ≤ 100 := by
    rw [Nat.div_le_iff_le_mul_add_pred hpos]; nlinarith
  have h3 := dec_length_le_three h2
  unfold progressBar
  rw [if_neg (by omega)]
  refine ⟨_, rfl, ?_⟩
  unfold replaceAt
  simp only [List.length_append, List.length_take, List.length_drop, List.length_replicate,
    List.length_singleton]
  omega

/-- **C62 is false in the last iteration.** When the last update is delayed and there are at most
38 iterations, `iterations + 1` of `iterations` is displayed and the bar is wider than 38
characters. -/
theorem C62_last_refuted {iterations : ℕ} (h1 : 1 ≤ iterations) (h2 : iterations ≤ 38) :
    ∃ shown bar, progressUpdate iterations (iterations - 1) true = some shown ∧
      shown = iterations + 1 ∧ progressBar shown iterations = .ok bar ∧ 38 < bar.length := by
  have e : iterations - 1 + 1 + 1 = iterations + 1 := by omega
  obtain ⟨bar, hbar⟩ : ∃ bar, progressBar (iterations + 1) iterations = .ok bar := by
    unfold progressBar; rw [if_neg (by omega)]; exact ⟨_, rfl⟩
  refine ⟨iterations + 1, bar, by unfold progressUpdate; simp; omega, rfl, hbar, ?_⟩
  unfold progressBar at hbar
  rw [if_neg (by omega)] at hbar
  cases hbar
  have h3 : 39 ≤ 38 * (iterations + 1) / iterations := by
    rw [Nat.le_div_iff_mul_le (by omega)]; omega
  have h4 : (dec (100 * (iterations + 1) / iterations)).length ≤ 3 := by
    have : 100 * (iterations + 1) / iterations ≤ 200 := by
      rw [Nat.div_le_iff_le_mul_add_pred (by omega)]; nlinarith
    generalize 100 * (iterations + 1) / iterations = n at *
    by_cases h1 : n < 10
    · rw [dec_lt_base h1]; simp
    · rw [dec_step (by omega)]
      by_cases h2 : n / 10 < 10
      · rw [dec_lt_base h2]; simp
      · rw [dec_step (by omega), dec_lt_base (by omega)]; simp
  unfold replaceAt
  simp only [List.length_append, List.length_take, List.length_drop, List.length_replicate,
    List.length_singleton]
  omega

/-- **C62, the end.** The last iteration is always displayed, as `iterations` of `iterations` with a bar of 38
characters unless the update is delayed; before it only delayed updates are displayed. -/
theorem C62_end {iterations : ℕ} (h : 1 ≤ iterations) :
    (∃ bar, progressUpdate iterations (iterations - 1) false = some iterations ∧
      progressBar iterations iterations = .ok bar ∧ bar.length = 38) ∧
    (progressUpdate iterations (iterations - 1) true).isSome ∧
    ∀ i late, i + 1 < iterations → ((progressUpdate iterations i late).isSome ↔ late = true) := by
  have e : iterations - 1 + 1 = iterations := by omega
  have hu : progressUpdate iterations (iterations - 1) false = some iterations := by
    simp [progressUpdate, e]
  obtain ⟨bar, h1, h2⟩ := C62_width_partial hu (by omega) (by simp)
  refine ⟨⟨bar, hu, h1, h2⟩, by simp [progressUpdate], fun i late hi => ?_⟩
  cases late <;> simp [progressUpdate]
  omega

/-- **C62, the whole line.** Its width also contains the decimal width of the iteration number:
with equal time strings two lines of one run have the same width exactly when their bars and
their iteration numbers have. -/
theorem C62_line {iterations i j : ℕ} {sec sec' ti tj bi bj : List Char}
    (hs : sec.length = sec'.length) (hi : progressText i iterations sec = .ok ti)
    (hj : progressText j iterations sec' = .ok tj) (hbi : progressBar i iterations = .ok bi)
    (hbj : progressBar j iterations = .ok bj) :
    ti.length = tj.length ↔
      bi.length + (dec i).length = bj.length + (dec j).length := by
  unfold progressText at hi hj
  rw [hbi] at hi
  rw [hbj] at hj
  cases hi
  cases hj
  simp only [List.length_append]
  omega

/-- **C62, what is shown.** While at most `iterations` is displayed the line reads `[bar] i of iterations
complete in t sec`.  The bar carries the percentage, rounded down, in its middle; every other position shows a
dash exactly when the share of the iterations it stands for has been completed. -/
theorem C62_shows {iterations i : ℕ} {sec t : List Char} (hi : i ≤ iterations)
    (h : progressText i iterations sec = .ok t) :
    ∃ bar loc, t = "[".toList ++ bar ++ "] ".toList ++ dec i ++ " of ".toList ++ dec iterations ++
        " complete in ".toList ++ sec ++ " sec".toList ∧ bar.length = 38 ∧
      (bar.drop loc).take (dec (100 * i / iterations) ++ ['%']).length = dec (100 * i / iterations) ++ ['%'] ∧
      (2 * loc + (dec (100 * i / iterations) ++ ['%']).length = 37 ∨
        2 * loc + (dec (100 * i / iterations) ++ ['%']).length = 38) ∧
      ∀ p < 38, (p < loc ∨ loc + (dec (100 * i / iterations) ++ ['%']).length ≤ p) →
        bar[p]? = some (if (p + 1) * iterations ≤ 38 * i then '-' else ' ') := by
  unfold progressText progressBar at h
  by_cases h0 : iterations = 0
  · rw [if_pos h0] at h; cases h
  rw [if_neg h0] at h
  cases h
  have hpos : 0 < iterations := by omega
  have h1 : 38 * i / iterations ≤ 38 := by
    rw [Nat.div_le_iff_le_mul_add_pred hpos]; nlinarith
  have h2 : 100 * i / iterations ≤ 100 := by
    rw [Nat.div_le_iff_le_mul_add_pred hpos]; nlinarith
  have h3 := dec_length_le_three h2
  have hinfo : (dec (100 * i / iterations) ++ ['%']).length ≤ 4 := by simp; omega
  have hdash : ∀ p, (p < 38 * i / iterations ↔ (p + 1) * iterations ≤ 38 * i) := fun p => by
    rw [← Nat.succ_le_iff, Nat.le_div_iff_mul_le hpos]
  generalize dec (100 * i / iterations) ++ ['%'] = info at hinfo ⊢
  generalize 38 * i / iterations = k at h1 hdash ⊢
  have hbar : ∀ p < 38, (List.replicate k '-' ++ List.replicate (38 - k) ' ')[p]? =
      some (if (p + 1) * iterations ≤ 38 * i then '-' else ' ') := by
    intro p hp
    rw [List.getElem?_append]
    simp only [← hdash p, List.length_replicate, List.getElem?_replicate]
    by_cases hk : p < k
    · simp [hk]
    · simp only [hk, if_false]
      rw [if_pos (by omega)]
  have hlen : (List.replicate k '-' ++ List.replicate (38 - k) ' ').length = 38 := by simp; omega
  generalize List.replicate k '-' ++ List.replicate (38 - k) ' ' = b at hbar hlen
  refine ⟨replaceAt b info ((b.length - info.length) / 2) ((b.length - info.length) / 2 + info.length),
    (b.length - info.length) / 2, rfl, ?_, ?_, by omega, ?_⟩
  · simp only [replaceAt, List.length_append, List.length_take, List.length_drop]
    omega
  · have e : (b.take ((b.length - info.length) / 2)).length = (b.length - info.length) / 2 := by
      rw [List.length_take]; omega
    rw [replaceAt, List.append_assoc, List.drop_append_of_le_length (by omega), List.drop_eq_nil_of_le (by omega),
      List.nil_append, List.take_left]
  · intro p hp hout
    rw [replaceAt, List.append_assoc, List.getElem?_append, List.getElem?_append]
    have e : (b.take ((b.length - info.length) / 2)).length = (b.length - info.length) / 2 := by
      rw [List.length_take]; omega
    rw [e]
    rcases hout with hout | hout
    · rw [if_pos hout, List.getElem?_take, if_pos hout, hbar p hp]
    · rw [if_neg (by omega), if_neg (by omega), List.getElem?_drop,
        show (b.length - info.length) / 2 + info.length + (p - (b.length - info.length) / 2 - info.length) = p by omega,
        hbar p hp]

example : (progressText 6 10 "0.5".toList).toOption =
    some "[-----------------60%--                ] 6 of 10 complete in 0.5 sec".toList := by decide

example : progressUpdate 10 4 true = some 6 ∧
    (progressBar 6 10).toOption = some "-----------------60%--                ".toList ∧
    progressUpdate 2 1 true = some 3 ∧
    (progressBar 3 2).toOption.map List.length = some 57 := by decide

/-! ### C55: ellipse -/

theorem checkSymmetric_iff {c : Mat ℝ 2} : checkSymmetric c = true ↔
    |c 0 1 - c 1 0| ≤ 1 / 10 ^ 8 + 1 / 10 ^ 5 * |c 1 0| ∧
    |c 1 0 - c 0 1| ≤ 1 / 10 ^ 8 + 1 / 10 ^ 5 * |c 0 1| := by
  unfold checkSymmetric
  rw [decide_eq_true_iff]
  constructor
  · intro h; exact ⟨h 0 1, h 1 0⟩
  · rintro ⟨h1, h2⟩ i j
    fin_cases i <;> fin_cases j
    · simp only [Fin.zero_eta, sub_self, abs_zero]; positivity
    · exact h1
    · exact h2
    · simp only [Fin.mk_one, sub_self, abs_zero]; positivity

/-- a successful call: the factor and the points -/
theorem generateEllipse_ok {mu : Vec ℝ 2} {cmat : Mat ℝ 2} {t : List ℝ} {pts : List (ℝ × ℝ)}
    (h : generateEllipse mu cmat t = .ok pts) :
    checkSymmetric cmat = true ∧ ∃ a b d, 0 < a ∧ 0 < d ∧ cmat 0 0 = a * a ∧ cmat 1 0 = a * b ∧
      cmat 1 1 = b * b + d * d ∧
      pts = t.map fun t => (mu 0 + a * Real.cos t, mu 1 + b * Real.cos t + d * Real.sin t) := by
  unfold generateEllipse at h
  split at h
  · cases h
  · rename_i hs
    refine ⟨by simpa using hs, ?_⟩
    unfold cholUpper2 at h
    by_cases h0 : cmat 0 0 ≤ 0
    · rw [if_pos h0] at h; cases h
    · by_cases h1 : cmat 1 1 - (cmat 1 0 / Real.sqrt (cmat 0 0)) ^ 2 ≤ 0
      · rw [if_neg h0, if_pos h1] at h; cases h
      · rw [if_neg h0, if_neg h1] at h
        cases h
        have p0 := Real.sqrt_pos.2 (not_le.1 h0)
        refine ⟨_, _, _, p0, Real.sqrt_pos.2 (not_le.1 h1),
          (Real.mul_self_sqrt (not_le.1 h0).le).symm, ?_, ?_, rfl⟩
        · field_simp
        · rw [Real.mul_self_sqrt (not_le.1 h1).le]; ring

/-- **C55, points.** For a symmetric matrix every generated point has Mahalanobis distance one
from the centre, under the inverse of the given covariance. -/
theorem C55_contour {mu : Vec ℝ 2} {cmat : Mat ℝ 2} (hsym : cmat 0 1 = cmat 1 0) {t : List ℝ}
    {pts : List (ℝ × ℝ)} (h : generateEllipse mu cmat t = .ok pts) :
    pts.length = t.length ∧ ∀ q ∈ pts,
      dotProduct (![q.1 - mu 0, q.2 - mu 1] : Fin 2 → ℝ)
        ((Matrix.of cmat)⁻¹.mulVec ![q.1 - mu 0, q.2 - mu 1]) = 1 := by
  obtain ⟨-, a, b, d, ha, hd, e00, e10, e11, rfl⟩ := generateEllipse_ok h
  refine ⟨by simp, fun q hq => ?_⟩
  obtain ⟨s, -, rfl⟩ := List.mem_map.1 hq
  have hC : Matrix.of cmat = !![a * a, a * b; a * b, b * b + d * d] := by
    ext i j
    fin_cases i <;> fin_cases j <;> simp [e00, e10, e11, hsym]
  have hdet : IsUnit (Matrix.of cmat).det := by
    rw [hC, Matrix.det_fin_two_of]
    have : a * a * (b * b + d * d) - a * b * (a * b) = (a * d) * (a * d) := by ring
    rw [this]
    exact (mul_ne_zero (mul_pos ha hd).ne' (mul_pos ha hd).ne').isUnit
  have hw : (Matrix.of cmat)⁻¹.mulVec
      ![mu 0 + a * Real.cos s - mu 0, mu 1 + b * Real.cos s + d * Real.sin s - mu 1] =
      ![Real.cos s / a - b * Real.sin s / (a * d), Real.sin s / d] := by
    have h1 : (Matrix.of cmat).mulVec ![Real.cos s / a - b * Real.sin s / (a * d), Real.sin s / d] =
        ![mu 0 + a * Real.cos s - mu 0, mu 1 + b * Real.cos s + d * Real.sin s - mu 1] := by
      rw [hC]
      ext i
      fin_cases i
      · simp [Matrix.mulVec, dotProduct, Fin.sum_univ_two]
        field_simp
        ring
      · simp [Matrix.mulVec, dotProduct, Fin.sum_univ_two]
        field_simp
        ring
    rw [← h1, Matrix.mulVec_mulVec, Matrix.nonsing_inv_mul _ hdet, Matrix.one_mulVec]
  dsimp only
  rw [hw]
  simp only [dotProduct, Fin.sum_univ_two, Matrix.cons_val_zero, Matrix.cons_val_one]
  have hcs := Real.sin_sq_add_cos_sq s
  have e : (mu 0 + a * Real.cos s - mu 0) * (Real.cos s / a - b * Real.sin s / (a * d)) +
      (mu 1 + b * Real.cos s + d * Real.sin s - mu 1) * (Real.sin s / d) =
      Real.sin s ^ 2 + Real.cos s ^ 2 := by
    field_simp
    ring
  rw [e, hcs]

/-- **C55, refusal of matrices that are not positive definite.** For a symmetric matrix the
ellipse is generated exactly when the matrix is positive definite; otherwise the program exits. -/
theorem C55_positive {mu : Vec ℝ 2} {cmat : Mat ℝ 2} (hsym : cmat 0 1 = cmat 1 0) (t : List ℝ) :
    ((∃ pts, generateEllipse mu cmat t = .ok pts) ↔
      ∀ v : Fin 2 → ℝ, v ≠ 0 → 0 < dotProduct v ((Matrix.of cmat).mulVec v)) ∧
    ((¬ ∃ pts, generateEllipse mu cmat t = .ok pts) →
      ∃ msg, generateEllipse mu cmat t = .error (.sysExit msg)) := by
  have hquad : ∀ v : Fin 2 → ℝ, dotProduct v ((Matrix.of cmat).mulVec v) =
      cmat 0 0 * v 0 * v 0 + 2 * cmat 1 0 * v 0 * v 1 + cmat 1 1 * v 1 * v 1 := by
    intro v
    simp only [dotProduct, Matrix.mulVec, Fin.sum_univ_two, Matrix.of_apply, hsym]
    ring
  constructor
  · constructor
    · rintro ⟨pts, h⟩ v hv
      obtain ⟨-, a, b, d, ha, hd, e00, e10, e11, -⟩ := generateEllipse_ok h
      rw [hquad, e00, e10, e11]
      have e : a * a * v 0 * v 0 + 2 * (a * b) * v 0 * v 1 + (b * b + d * d) * v 1 * v 1 =
          (a * v 0 + b * v 1) ^ 2 + (d * v 1) ^ 2 := by ring
      rw [e]
      by_cases h1 : v 1 = 0
      · have h0 : v 0 ≠ 0 := by
          intro h0
          apply hv
          ext i
          fin_cases i
          · exact h0
          · exact h1
        rw [h1]
        have := pow_pos (mul_self_pos.2 (mul_ne_zero ha.ne' h0)) 1
        nlinarith
      · have := mul_self_pos.2 (mul_ne_zero hd.ne' h1)
        nlinarith [sq_nonneg (a * v 0 + b * v 1)]
    · intro hpd
      have h0 : 0 < cmat 0 0 := by
        have := hpd ![1, 0] (by intro h; have := congrFun h 0; simp at this)
        rw [hquad] at this
        simpa using this
      have h1 : 0 < cmat 1 1 - (cmat 1 0 / Real.sqrt (cmat 0 0)) ^ 2 := by
        rw [div_pow, Real.sq_sqrt h0.le]
        have := hpd ![-cmat 1 0 / cmat 0 0, 1] (by intro h; have := congrFun h 1; simp at this)
        rw [hquad] at this
        simp only [Matrix.cons_val_zero, Matrix.cons_val_one] at this
        have e : cmat 0 0 * (-cmat 1 0 / cmat 0 0) * (-cmat 1 0 / cmat 0 0) +
            2 * cmat 1 0 * (-cmat 1 0 / cmat 0 0) * 1 + cmat 1 1 * 1 * 1 =
            cmat 1 1 - cmat 1 0 ^ 2 / cmat 0 0 := by
          field_simp
          ring
        rw [e] at this
        exact this
      unfold generateEllipse
      rw [if_neg, cholUpper2, if_neg (not_le.2 h0), if_neg (not_le.2 h1)]
      · exact ⟨_, rfl⟩
      · rw [not_not, checkSymmetric_iff, hsym, sub_self, abs_zero]
        constructor <;> positivity
  · intro hno
    unfold generateEllipse at hno ⊢
    split
    · exact ⟨_, rfl⟩
    · rename_i hs
      rw [if_neg hs] at hno
      cases hc : cholUpper2 cmat with
      | none => exact ⟨_, rfl⟩
      | some R => rw [hc] at hno; exact absurd ⟨_, rfl⟩ hno

/-- **C55, refusal of asymmetric matrices, full statement:** every asymmetric matrix is refused.
**Proved here:** a matrix whose off-diagonal entries differ by more than
`1e-8 + 1e-5 * |entry|` is refused.  Smaller asymmetries are accepted, see
`C55_asymmetric_refuted`. -/
theorem C55_asymmetric_partial {mu : Vec ℝ 2} {cmat : Mat ℝ 2} (t : List ℝ)
    (h : 1 / 10 ^ 8 + 1 / 10 ^ 5 * |cmat 1 0| < |cmat 0 1 - cmat 1 0|) :
    ∃ msg, generateEllipse mu cmat t = .error (.sysExit msg) := by
  unfold generateEllipse
  rw [if_pos]
  · exact ⟨_, rfl⟩
  · intro hc
    exact absurd (checkSymmetric_iff.1 hc).1 (not_le.2 h)

/-- A matrix that is not symmetric. -/
example : ∃ msg, generateEllipse ![1, 1] (![![4, 2], ![3, 5]] : Mat ℝ 2) [0, 1] = .error (.sysExit msg) :=
  C55_asymmetric_partial _ (by simp; norm_num)

/-- **C55 is false for slightly asymmetric matrices.** -/
theorem C55_asymmetric_refuted : ∃ cmat : Mat ℝ 2, cmat 0 1 ≠ cmat 1 0 ∧
    ∀ mu t, ∃ pts, generateEllipse mu cmat t = .ok pts := by
  refine ⟨![![1, 1 / 10 ^ 9], ![0, 1]], by simp, fun mu t => ?_⟩
  unfold generateEllipse
  rw [if_neg]
  · unfold cholUpper2
    rw [if_neg, if_neg]
    · exact ⟨_, rfl⟩
    · simp
    · simp
  · rw [not_not, checkSymmetric_iff]
    simp
    norm_num

/-- a covariance that is accepted: `[[4, 2], [2, 5]]`, factor `2, 1, 2` -/
example : ∃ cmat : Mat ℝ 2, cmat 0 1 = cmat 1 0 ∧ cmat 1 0 = 2 ∧
    ∃ pts, generateEllipse ![1, 1] cmat [0, 1] = .ok pts := by
  refine ⟨![![4, 2], ![2, 5]], by simp, by simp, (C55_positive (by simp) _).1.2 fun v hv => ?_⟩
  simp only [dotProduct, Matrix.mulVec, Fin.sum_univ_two, Matrix.of_apply, Matrix.cons_val_zero,
    Matrix.cons_val_one]
  have : v 0 ≠ 0 ∨ v 1 ≠ 0 := by
    by_contra hc
    push Not at hc
    apply hv
    ext i
    fin_cases i
    · exact hc.1
    · exact hc.2
  rcases this with h | h
  · nlinarith [mul_self_pos.2 h, sq_nonneg (v 0 + v 1)]
  · nlinarith [mul_self_pos.2 h, sq_nonneg (v 0 + v 1)]

/-! ### C49: settings -/

section Settings
variable {κ A : Type} [DecidableEq κ]

/-- `settings[k]`, `none` where the key is absent or `settings` is not a dictionary -/
def SVal.get : SVal κ A → κ → Option (SVal κ A)
  | .dict ks v, k => if k ∈ ks then some (v k) else Option.none
  | _, _ => Option.none

/-- `settings[k1][k2]…` -/
def SVal.at : SVal κ A → List κ → Option (SVal κ A)
  | s, [] => some s
  | s, k :: p => (s.get k).bind fun v => v.at p

theorem SVal.get_dict {ks : List κ} {v : κ → SVal κ A} {k : κ} {y : SVal κ A} :
    SVal.get (.dict ks v) k = some y ↔ k ∈ ks ∧ v k = y := by
  simp [SVal.get]

theorem map_ok {α β : Type} {f : α → β} {x : Except PyErr α} {y : β} (h : x.map f = .ok y) :
    ∃ a, x = .ok a ∧ f a = y := by
  cases x with
  | error e => cases h
  | ok a => exact ⟨a, rfl, by simpa [Except.map] using h⟩

/-- one level of the merge -/
theorem checkSettings_ok {d u r : SVal κ A} (h : checkSettings d u = .ok r) :
    (∃ ks dv, d = .dict ks dv) ∧ (u = .none ∧ r = d ∨ ∃ us uv, u = .dict us uv) ∧
    ∀ k, (u.get k = none → r.get k = d.get k) ∧
      ∀ x, u.get k = some x →
        (∀ y, d.get k = some y → y.isDict = true → ∃ z, checkSettings y x = .ok z ∧ r.get k = some z) ∧
        ((∀ y, d.get k = some y → y.isDict = false) → r.get k = some x) := by
  cases d with
  | none => simp [checkSettings] at h
  | leaf a => simp [checkSettings] at h
  | dict ks dv =>
    cases u with
    | leaf a => simp [checkSettings] at h
    | none =>
      simp only [checkSettings, Except.ok.injEq] at h
      subst h
      exact ⟨⟨ks, dv, rfl⟩, .inl ⟨rfl, rfl⟩, fun k => ⟨fun _ => rfl, fun x hx => by simp [SVal.get] at hx⟩⟩
    | dict us uv =>
      refine ⟨⟨ks, dv, rfl⟩, .inr ⟨us, uv, rfl⟩, ?_⟩
      rw [checkSettings] at h
      obtain ⟨st, hf, rfl⟩ := map_ok h
      · have key : ∀ (l : List κ) (st0 st : List κ × (κ → SVal κ A)),
            l.foldlM (fun (st : List κ × (κ → SVal κ A)) uo =>
              if uo ∈ ks then
                if (dv uo).isDict then (checkSettings (dv uo) (uv uo)).map (dictSet st uo)
                else .ok (dictSet st uo (uv uo))
              else .ok (dictSet st uo (uv uo))) st0 = .ok st →
            ∀ k, (k ∉ l → st.2 k = st0.2 k ∧ (k ∈ st.1 ↔ k ∈ st0.1)) ∧
              (k ∈ l → k ∈ st.1 ∧ (k ∈ ks → (dv k).isDict = true →
                  checkSettings (dv k) (uv k) = .ok (st.2 k)) ∧
                ((k ∈ ks → (dv k).isDict = false) → st.2 k = uv k)) := by
          intro l
          induction l with
          | nil =>
            intro st0 st hst k
            cases hst
            simp
          | cons a l ih =>
            intro st0 st hst k
            rw [List.foldlM_cons] at hst
            obtain ⟨st1, h1, h2⟩ := bind_ok.1 hst
            obtain ⟨ihn, ihm⟩ := ih st1 st h2 k
            obtain ⟨v, hv, hv1, hv2⟩ : ∃ v, st1 = dictSet st0 a v ∧
                (a ∈ ks → (dv a).isDict = true → checkSettings (dv a) (uv a) = .ok v) ∧
                ((a ∈ ks → (dv a).isDict = false) → v = uv a) := by
              by_cases ha : a ∈ ks
              · by_cases hd : (dv a).isDict = true
                · rw [if_pos ha, if_pos hd] at h1
                  cases hc : checkSettings (dv a) (uv a) with
                  | error e => rw [hc] at h1; cases h1
                  | ok v =>
                    rw [hc] at h1
                    cases h1
                    exact ⟨v, rfl, fun _ _ => rfl, fun h => by simp [h ha] at hd⟩
                · rw [if_pos ha, if_neg hd] at h1
                  cases h1
                  exact ⟨_, rfl, fun _ h => absurd h hd, fun _ => rfl⟩
              · rw [if_neg ha] at h1
                cases h1
                exact ⟨_, rfl, fun h => absurd h ha, fun _ => rfl⟩
            have hkeys : ∀ k', k' ∈ st1.1 ↔ k' = a ∨ k' ∈ st0.1 := by
              intro k'
              subst hv
              unfold dictSet
              split
              · rename_i hin
                constructor
                · exact .inr
                · rintro (rfl | h)
                  · exact hin
                  · exact h
              · simp [or_comm]
            by_cases hkl : k ∈ l
            · exact ⟨fun h => absurd (List.mem_cons_of_mem _ hkl) h, fun _ => ihm hkl⟩
            · obtain ⟨e1, e2⟩ := ihn hkl
              by_cases hka : k = a
              · subst hka
                refine ⟨fun h => absurd List.mem_cons_self h, fun _ => ⟨e2.2 ((hkeys k).2 (.inl rfl)), ?_⟩⟩
                have : st.2 k = v := by rw [e1, hv]; simp [dictSet]
                rw [this]
                exact ⟨hv1, hv2⟩
              · refine ⟨fun _ => ⟨?_, ?_⟩, fun h => ?_⟩
                · rw [e1, hv]; simp [dictSet, hka]
                · rw [e2, hkeys]; simp [hka]
                · rcases List.mem_cons.1 h with h | h
                  · exact absurd h hka
                  · exact absurd h hkl
        intro k
        obtain ⟨kn, km⟩ := key us (ks, dv) st hf k
        by_cases hku : k ∈ us
        · obtain ⟨hin, h1, h2⟩ := km hku
          refine ⟨fun h => by simp [SVal.get, hku] at h, fun x hx => ?_⟩
          have : x = uv k := by simpa [SVal.get, hku, eq_comm] using hx
          subst this
          refine ⟨fun y hy hyd => ?_, fun hy => ?_⟩
          · by_cases hk : k ∈ ks
            · have : y = dv k := by simpa [SVal.get, hk, eq_comm] using hy
              subst this
              exact ⟨_, h1 hk hyd, by simp [SVal.get, hin]⟩
            · simp [SVal.get, hk] at hy
          · rw [← h2 fun hk => hy _ (by simp [SVal.get, hk])]
            simp [SVal.get, hin]
        · obtain ⟨e1, e2⟩ := kn hku
          refine ⟨fun _ => ?_, fun x hx => by simp [SVal.get, hku] at hx⟩
          simp only at e1 e2
          simp [SVal.get, e1, e2]

theorem SVal.at_append (s : SVal κ A) (p q : List κ) :
    s.at (p ++ q) = (s.at p).bind fun v => v.at q := by
  induction p generalizing s with
  | nil => rfl
  | cons k p ih =>
    simp only [List.cons_append, SVal.at]
    cases s.get k with
    | none => rfl
    | some v => simp [ih]

/-- below a path at which default and user both have dictionaries, the merge of the two is found -/
theorem checkSettings_at {d u r : SVal κ A} (h : checkSettings d u = .ok r) (q : List κ) {y x : SVal κ A}
    (hd : d.at q = some y) (hy : y.isDict = true) (hu : u.at q = some x) :
    ∃ z, checkSettings y x = .ok z ∧ r.at q = some z := by
  induction q generalizing d u r with
  | nil =>
    simp only [SVal.at, Option.some.injEq] at hd hu
    subst hd hu
    exact ⟨r, h, rfl⟩
  | cons k q ih =>
    simp only [SVal.at] at hd hu ⊢
    obtain ⟨d', hd', hd⟩ := Option.bind_eq_some_iff.1 hd
    obtain ⟨u', hu', hu⟩ := Option.bind_eq_some_iff.1 hu
    have hdd : d'.isDict = true := by
      cases q with
      | nil => simp only [SVal.at, Option.some.injEq] at hd; rw [hd]; exact hy
      | cons k' q =>
        simp only [SVal.at] at hd
        cases d' with
        | dict _ _ => rfl
        | none => simp [SVal.get] at hd
        | leaf _ => simp [SVal.get] at hd
    obtain ⟨z, hz, hrz⟩ := (((checkSettings_ok h).2.2 k).2 u' hu').1 d' hd' hdd
    rw [hrz]
    exact ih hz hd hu

/-- **C49, the user's leaves win.** Every value other than `None` and a dictionary which the user
set, at any depth, is found in the merged settings at the same path. -/
theorem C49_user {d u r : SVal κ A} (h : checkSettings d u = .ok r) (p : List κ) {a : A}
    (hp : u.at p = some (.leaf a)) : r.at p = some (.leaf a) := by
  induction p generalizing d u r with
  | nil =>
    simp only [SVal.at, Option.some.injEq] at hp
    subst hp
    obtain ⟨-, h | ⟨us, uv, h⟩, -⟩ := checkSettings_ok h
    · exact absurd h.1 (by simp)
    · cases h
  | cons k p ih =>
    simp only [SVal.at] at hp ⊢
    obtain ⟨x, hx, hp⟩ := Option.bind_eq_some_iff.1 hp
    obtain ⟨h1, h2⟩ := ((checkSettings_ok h).2.2 k).2 x hx
    by_cases hd : ∃ y, d.get k = some y ∧ y.isDict = true
    · obtain ⟨y, hy, hyd⟩ := hd
      obtain ⟨z, hz, hr⟩ := h1 y hy hyd
      rw [hr]
      exact ih hz hp
    · rw [h2 fun y hy => by simpa using fun hyd => hd ⟨y, hy, hyd⟩]
      exact hp

/-- **C49, the user's values replace everything which is not a dictionary**, including unknown
keys, `None` and whole dictionaries: below a dictionary of the default the user's value is taken
as it is. -/
theorem C49_replaced {d u r : SVal κ A} (h : checkSettings d u = .ok r) (q : List κ) (k : κ)
    {y x : SVal κ A} (hd : d.at q = some y) (hy : y.isDict = true)
    (hdk : ∀ w, d.at (q ++ [k]) = some w → w.isDict = false)
    (hu : u.at (q ++ [k]) = some x) : r.at (q ++ [k]) = some x := by
  rw [SVal.at_append] at hu hdk ⊢
  obtain ⟨u', hu', hux⟩ := Option.bind_eq_some_iff.1 hu
  obtain ⟨z, hz, hr⟩ := checkSettings_at h q hd hy hu'
  have hux : u'.get k = some x := by simpa [SVal.at] using hux
  rw [hr]
  rw [hd] at hdk
  have := (((checkSettings_ok hz).2.2 k).2 x hux).2 fun w hw => hdk w (by simp [SVal.at, hw])
  simp [SVal.at, this]

/-- **C49, the default elsewhere.** Where the user's dictionary at path `q` lacks the key `k`,
or is `None`, everything at and below `q, k` is as in the default: present exactly where the
default has it, with the default's value. -/
theorem C49_default {d u r : SVal κ A} (h : checkSettings d u = .ok r) (q : List κ) (k : κ)
    (p : List κ) {y x : SVal κ A} (hd : d.at q = some y) (hy : y.isDict = true)
    (hu : u.at q = some x) (huk : u.at (q ++ [k]) = none) :
    r.at (q ++ k :: p) = d.at (q ++ k :: p) := by
  obtain ⟨z, hz, hr⟩ := checkSettings_at h q hd hy hu
  rw [SVal.at_append] at huk
  rw [hu] at huk
  have hxk : x.get k = none := by
    rw [Option.bind_some] at huk
    simpa [SVal.at] using huk
  rw [SVal.at_append, SVal.at_append, hr, hd, Option.bind_some, Option.bind_some]
  simp only [SVal.at]
  rw [((checkSettings_ok hz).2.2 k).1 hxk]

/-- merging settings into themselves changes nothing -/
theorem checkSettings_self (d : SVal κ A) (hd : d.isDict = true) : checkSettings d d = .ok d := by
  induction d with
  | none => cases hd
  | leaf a => cases hd
  | dict ks dv ih =>
    rw [checkSettings]
    have : ∀ l : List κ, (∀ k ∈ l, k ∈ ks) → l.foldlM (fun (st : List κ × (κ → SVal κ A)) uo =>
        if uo ∈ ks then
          if (dv uo).isDict then (checkSettings (dv uo) (dv uo)).map (dictSet st uo)
          else .ok (dictSet st uo (dv uo))
        else .ok (dictSet st uo (dv uo))) (ks, dv) = .ok (ks, dv) := by
      intro l
      induction l with
      | nil => intro _; rfl
      | cons a l ihl =>
        intro hl
        have ha := hl a List.mem_cons_self
        have e : dictSet (ks, dv) a (dv a) = (ks, dv) := by
          unfold dictSet
          simp [ha]
        rw [List.foldlM_cons, if_pos ha]
        by_cases hda : (dv a).isDict = true
        · rw [if_pos hda, ih a hda]
          simp only [Except.map, e]
          rw [ok_bind]
          exact ihl fun k hk => hl k (List.mem_cons_of_mem _ hk)
        · rw [if_neg hda, e, ok_bind]
          exact ihl fun k hk => hl k (List.mem_cons_of_mem _ hk)
    rw [this ks fun _ h => h]
    rfl

/-- **C49, idempotence.** Merging the same user settings into the result again succeeds and
changes nothing. -/
theorem C49_idempotent {d u r : SVal κ A} (h : checkSettings d u = .ok r) :
    checkSettings r u = .ok r := by
  induction d generalizing u r with
  | none => simp [checkSettings] at h
  | leaf a => simp [checkSettings] at h
  | dict ks dv ih =>
    obtain ⟨-, hu, hk⟩ := checkSettings_ok h
    rcases hu with ⟨rfl, rfl⟩ | ⟨us, uv, rfl⟩
    · simp [checkSettings]
    · obtain ⟨rs, rv, rfl⟩ : ∃ rs rv, r = .dict rs rv := by
        rw [checkSettings] at h
        obtain ⟨st, -, rfl⟩ := map_ok h
        exact ⟨_, _, rfl⟩
      have hval : ∀ k ∈ us, k ∈ rs ∧
          (((rv k).isDict = true → checkSettings (rv k) (uv k) = .ok (rv k)) ∧
           ((rv k).isDict = false → rv k = uv k)) := by
        intro k hku
        obtain ⟨h1, h2⟩ := (hk k).2 (uv k) (by simp [SVal.get, hku])
        by_cases hd : ∃ y, SVal.get (.dict ks dv) k = some y ∧ y.isDict = true
        · obtain ⟨y, hy, hyd⟩ := hd
          obtain ⟨z, hz, hr⟩ := h1 y hy hyd
          have hkk : k ∈ ks ∧ dv k = y := SVal.get_dict.1 hy
          have hrk : k ∈ rs ∧ rv k = z := SVal.get_dict.1 hr
          refine ⟨hrk.1, fun _ => ?_, fun hf => ?_⟩
          · rw [hrk.2]
            exact ih k (by rw [hkk.2]; exact hz)
          · rw [hrk.2] at hf
            obtain ⟨⟨_, _, hyy⟩, hx, -⟩ := checkSettings_ok hz
            subst hyy
            rcases hx with ⟨_, rfl⟩ | ⟨xs, xv, hx⟩
            · cases hf
            · rw [hx, checkSettings] at hz
              obtain ⟨st, -, rfl⟩ := map_ok hz
              cases hf
        · have hr := h2 fun y hy => by simpa using fun hyd => hd ⟨y, hy, hyd⟩
          have hrk : k ∈ rs ∧ rv k = uv k := SVal.get_dict.1 hr
          exact ⟨hrk.1, fun hdict => by rw [hrk.2] at hdict ⊢; exact checkSettings_self _ hdict,
            fun _ => hrk.2⟩
      rw [checkSettings]
      have : ∀ l : List κ, (∀ k ∈ l, k ∈ us) → l.foldlM (fun (st : List κ × (κ → SVal κ A)) uo =>
          if uo ∈ rs then
            if (rv uo).isDict then (checkSettings (rv uo) (uv uo)).map (dictSet st uo)
            else .ok (dictSet st uo (uv uo))
          else .ok (dictSet st uo (uv uo))) (rs, rv) = .ok (rs, rv) := by
        intro l
        induction l with
        | nil => intro _; rfl
        | cons a l ihl =>
          intro hl
          obtain ⟨ha, hv1, hv2⟩ := hval a (hl a List.mem_cons_self)
          have e : dictSet (rs, rv) a (rv a) = (rs, rv) := by
            unfold dictSet
            simp [ha]
          rw [List.foldlM_cons, if_pos ha]
          by_cases hda : (rv a).isDict = true
          · rw [if_pos hda, hv1 hda]
            simp only [Except.map, e]
            rw [ok_bind]
            exact ihl fun k hk => hl k (List.mem_cons_of_mem _ hk)
          · rw [if_neg hda, ← hv2 (by simpa using hda), e, ok_bind]
            exact ihl fun k hk => hl k (List.mem_cons_of_mem _ hk)
      rw [this us fun _ h => h]
      rfl

/-- a merge with nested dictionaries: `{f: {x: 1, y: 2}, g: 3}` with `{f: {y: 5}, h: 7}` -/
example : ∃ r, checkSettings (κ := String) (A := ℕ)
      (.dict ["f", "g"] fun k => if k = "f" then .dict ["x", "y"] fun k => .leaf (if k = "x" then 1 else 2)
        else .leaf 3)
      (.dict ["f", "h"] fun k => if k = "f" then .dict ["y"] fun _ => .leaf 5 else .leaf 7) = .ok r ∧
    r.at ["f", "x"] = some (.leaf 1) ∧ r.at ["f", "y"] = some (.leaf 5) ∧
    r.at ["g"] = some (.leaf 3) ∧ r.at ["h"] = some (.leaf 7) ∧ r.at ["x"] = none := by
  refine ⟨_, rfl, ?_⟩
  refine ⟨rfl, rfl, rfl, rfl, rfl⟩

end Settings

end Verif
