import Mathlib.Tactic.Linarith
import Mathlib.Tactic.NormNum
import Mathlib.Tactic.IntervalCases
import Mathlib.Tactic.FieldSimp
import Mathlib.Tactic.Positivity
import Mathlib.Tactic.Ring
import Verif.Lemmas.Decimal
import Verif.Spec.NumberText

/-!
# C108: numbers as text

What `format_number_to_str` writes, read back by the reader of `Spec/NumberText.lean`.
-/

namespace Verif

/-! ### Digits -/

theorem digitChar_toNat {k : ℕ} (h : k < 10) : k.digitChar.toNat - '0'.toNat = k := by
  interval_cases k <;> decide

theorem digitChar_isDigit {k : ℕ} (h : k < 10) : k.digitChar.isDigit = true := by
  interval_cases k <;> decide

theorem digitsValue_concat (s : List Char) (c : Char) :
    digitsValue (s ++ [c]) = 10 * digitsValue s + (c.toNat - '0'.toNat) := by
  simp [digitsValue, List.foldl_append]

theorem digitsValue_dec (n : ℕ) : digitsValue (dec n) = n := by
  induction n using Nat.strong_induction_on with
  | _ n ih =>
    by_cases h : n < 10
    · rw [dec_lt_base h]
      simpa [digitsValue] using digitChar_toNat h
    · rw [dec_step (by omega), digitsValue_concat, ih _ (by omega), digitChar_toNat (by omega)]
      omega

theorem digitsValue_zero_cons (s : List Char) : digitsValue ('0' :: s) = digitsValue s := by
  simp [digitsValue]

theorem digitsValue_twoDigits {k : ℕ} (h : k < 100) : digitsValue (twoDigits k) = k := by
  have h1 : k / 10 % 10 = k / 10 := by omega
  simp only [digitsValue, twoDigits, List.foldl_cons, List.foldl_nil, h1,
    digitChar_toNat (show k / 10 < 10 by omega), digitChar_toNat (show k % 10 < 10 by omega)]
  omega

theorem twoDigits_digit {k : ℕ} : ∀ c ∈ twoDigits k, c.isDigit = true := by
  intro c hc
  simp only [twoDigits, List.mem_cons, List.not_mem_nil, or_false] at hc
  rcases hc with rfl | rfl <;> exact digitChar_isDigit (by omega)

theorem dec_length_le {n : ℕ} : ∀ {k : ℕ}, 1 ≤ k → n < 10 ^ k → (dec n).length ≤ k := by
  induction n using Nat.strong_induction_on with
  | _ n ih =>
    intro k hk h
    by_cases h' : n < 10
    · rw [dec_lt_base h']; simpa using hk
    · rw [dec_step (by omega)]
      obtain ⟨j, rfl⟩ : ∃ j, k = j + 1 := ⟨k - 1, by omega⟩
      have hj : 1 ≤ j := by
        rcases Nat.eq_zero_or_pos j with rfl | hj
        · simp at h; omega
        · exact hj
      have := ih (n / 10) (by omega) hj (by
        rw [pow_succ] at h; omega)
      simpa using this

theorem dec_ne_nil (n : ℕ) : dec n ≠ [] := by
  have := dec_length_pos n
  intro h; rw [h] at this; simp at this

/-! ### Reading -/

theorem takeWhile_digits {w r : List Char} {c : Char} (hw : ∀ x ∈ w, x.isDigit = true)
    (hc : c.isDigit = false) : (w ++ c :: r).takeWhile Char.isDigit = w := by
  rw [List.takeWhile_append_of_pos hw]; simp [hc]

theorem dropWhile_digits {w r : List Char} {c : Char} (hw : ∀ x ∈ w, x.isDigit = true)
    (hc : c.isDigit = false) : (w ++ c :: r).dropWhile Char.isDigit = c :: r := by
  rw [List.dropWhile_append_of_pos hw]; simp [hc]

theorem read_fixed {w f : List Char} (hw : ∀ x ∈ w, x.isDigit = true) (hf : ∀ x ∈ f, x.isDigit = true)
    (w0 : w ≠ []) (f0 : f ≠ []) :
    readUnsigned (w ++ '.' :: f) = some ((digitsValue w : ℚ) + (digitsValue f : ℚ) / 10 ^ f.length) := by
  have e1 : f.takeWhile Char.isDigit = f := by
    have := List.takeWhile_append_of_pos (l₂ := []) hf
    simpa using this
  have e2 : f.dropWhile Char.isDigit = [] := by
    have := List.dropWhile_append_of_pos (l₂ := []) hf
    simpa using this
  unfold readUnsigned
  simp only [takeWhile_digits hw (c := '.') (by decide), dropWhile_digits hw (c := '.') (by decide)]
  simp [e1, e2, w0, f0]

theorem read_sci {w f t : List Char} {e : ℤ} (hw : ∀ x ∈ w, x.isDigit = true)
    (hf : ∀ x ∈ f, x.isDigit = true) (w0 : w ≠ []) (f0 : f ≠ []) (ht : readExponent t = some e) :
    readUnsigned (w ++ '.' :: (f ++ 'e' :: t)) =
      some (((digitsValue w : ℚ) + (digitsValue f : ℚ) / 10 ^ f.length) * 10 ^ e) := by
  unfold readUnsigned
  simp only [takeWhile_digits hw (c := '.') (by decide), dropWhile_digits hw (c := '.') (by decide),
    takeWhile_digits hf (c := 'e') (by decide), dropWhile_digits hf (c := 'e') (by decide)]
  simp [ht, w0, f0]

theorem read_exponentText (e : ℤ) : readExponent (exponentText e) = some e := by
  have key : ∀ n : ℕ, ∃ s, (if n < 10 then '0' :: dec n else dec n) = s ∧ s ≠ [] ∧
      s.all Char.isDigit = true ∧ digitsValue s = n := by
    intro n
    refine ⟨_, rfl, ?_, ?_, ?_⟩
    · split
      · simp
      · exact dec_ne_nil n
    · split
      · simp only [List.all_cons, Bool.and_eq_true]
        exact ⟨by decide, List.all_eq_true.2 fun c hc => mem_dec hc⟩
      · exact List.all_eq_true.2 fun c hc => mem_dec hc
    · split
      · rw [digitsValue_zero_cons, digitsValue_dec]
      · exact digitsValue_dec n
  obtain ⟨s, hs, h0, h1, h2⟩ := key e.natAbs
  unfold exponentText
  rw [hs]
  by_cases he : e < 0
  · simp only [he, if_true, readExponent, h0, h1, h2, ne_eq, not_false_eq_true, and_self]
    rw [Int.natCast_natAbs, abs_of_neg he, neg_neg]
  · simp only [he, if_false, readExponent, h0, h1, h2, ne_eq, not_false_eq_true, and_self, if_true]
    rw [Int.natCast_natAbs, abs_of_nonneg (not_lt.1 he)]

theorem exponentText_length {e : ℤ} (h : e.natAbs < 100) : (exponentText e).length = 3 := by
  unfold exponentText
  by_cases h' : e.natAbs < 10
  · simp [h', dec_lt_base h']
  · rw [if_neg h', dec_step (by omega), dec_lt_base (show e.natAbs / 10 < 10 by omega)]
    simp

theorem readUnsigned_head {s : List Char} {v : ℚ} (h : readUnsigned s = some v) :
    ∃ c r, s = c :: r ∧ c.isDigit = true := by
  cases s with
  | nil => simp [readUnsigned] at h
  | cons c r =>
    refine ⟨c, r, rfl, ?_⟩
    by_contra hc
    simp only [Bool.not_eq_true] at hc
    unfold readUnsigned at h
    simp only [List.takeWhile_cons, hc, List.dropWhile_cons] at h
    simp only [Bool.false_eq_true, if_false, true_or, if_true] at h
    split at h <;> simp at h

/-- reading skips the blanks and the sign -/
theorem read_padded {s : List Char} {v : ℚ} (w : ℕ) (neg : Bool) (h : readUnsigned s = some v) :
    readNumber (padLeft w ((if neg then ['-'] else []) ++ s)) = some (if neg then -v else v) := by
  obtain ⟨c, r, rfl, hc⟩ := readUnsigned_head h
  have e : ∀ (k : ℕ) (t : List Char),
      (List.replicate k ' ' ++ t).dropWhile (· == ' ') = t.dropWhile (· == ' ') := by
    intro k t
    rw [List.dropWhile_append_of_pos]
    intro x hx
    simp [List.eq_of_mem_replicate hx]
  have hc' : (c == ' ') = false := by
    by_contra hb
    simp only [Bool.not_eq_false, beq_iff_eq] at hb
    subst hb; exact absurd hc (by decide)
  have hm : c ≠ '-' := by rintro rfl; exact absurd hc (by decide)
  unfold readNumber padLeft
  rw [e]
  cases neg
  · simp only [Bool.false_eq_true, if_false, List.nil_append, List.dropWhile_cons, hc']
    split
    · rename_i heq
      simp only [List.cons.injEq] at heq
      exact absurd heq.1 hm
    · rename_i heq
      exact h
  · simp [h]

/-! ### Rounding -/

theorem round_error {x : ℚ} (hx : 0 ≤ x) : |(roundHalfEven x : ℚ) - x| ≤ 1 / 2 := by
  have h1 := Nat.floor_le hx
  have h2 := Nat.lt_floor_add_one x
  unfold roundHalfEven
  rw [abs_le]
  simp only
  split
  · constructor <;> linarith
  · split
    · push_cast; constructor <;> linarith
    · split
      · constructor <;> linarith
      · push_cast; constructor <;> linarith

theorem round_closest {x : ℚ} (hx : 0 ≤ x) (k : ℤ) : |(roundHalfEven x : ℚ) - x| ≤ |(k : ℚ) - x| := by
  by_cases hk : k = roundHalfEven x
  · subst hk; simp
  · have h := round_error hx
    have h1 : (1 : ℚ) ≤ |(k : ℚ) - roundHalfEven x| := by
      have : (1 : ℤ) ≤ |k - roundHalfEven x| := Int.one_le_abs (sub_ne_zero.2 hk)
      exact_mod_cast this
    have h2 : |(k : ℚ) - roundHalfEven x| ≤ |(k : ℚ) - x| + |(roundHalfEven x : ℚ) - x| := by
      rw [abs_sub_comm (roundHalfEven x : ℚ) x]; exact abs_sub_le _ _ _
    linarith

theorem round_mono {x y : ℚ} (hx : 0 ≤ x) (h : x ≤ y) : roundHalfEven x ≤ roundHalfEven y := by
  rcases eq_or_lt_of_le h with rfl | h
  · exact le_rfl
  · by_contra hc
    have h1 := abs_le.1 (round_error hx)
    have h2 := abs_le.1 (round_error (hx.trans h.le))
    have : (roundHalfEven y : ℚ) + 1 ≤ roundHalfEven x := by exact_mod_cast (not_le.1 hc)
    linarith [h1.2, h2.1]

theorem round_nat (n : ℕ) : roundHalfEven (n : ℚ) = n := by
  have h := round_closest (Nat.cast_nonneg n : (0 : ℚ) ≤ n) n
  simp only [Int.cast_natCast, sub_self, abs_zero] at h
  have := abs_nonpos_iff.1 h
  have h' : (roundHalfEven (n : ℚ) : ℚ) = n := by linarith
  exact_mod_cast h'

/-! ### The numbers shown -/

/-- the number shown by `fixed2` -/
def fixedValue (x : ℚ) : ℚ := roundHalfEven (x * 100) / 100

/-- the number shown by `sci2` -/
def sciValue (x : ℚ) : ℚ :=
  if x = 0 then 0 else roundHalfEven (x * 10 ^ (2 - Int.log 10 x)) * 10 ^ (Int.log 10 x - 2)

theorem read_fixed2 (x : ℚ) : readUnsigned (fixed2 x) = some (fixedValue x) := by
  unfold fixed2 fixedValue
  simp only
  rw [read_fixed (fun _ => mem_dec) twoDigits_digit (dec_ne_nil _) (by simp [twoDigits]),
    digitsValue_dec, digitsValue_twoDigits (Nat.mod_lt _ (by norm_num))]
  have h := Nat.div_add_mod (roundHalfEven (x * 100)) 100
  have hq : (roundHalfEven (x * 100) : ℚ) =
      100 * (roundHalfEven (x * 100) / 100 : ℕ) + (roundHalfEven (x * 100) % 100 : ℕ) := by
    exact_mod_cast h.symm
  rw [show (twoDigits (roundHalfEven (x * 100) % 100)).length = 2 from rfl]
  congr 1
  rw [hq]
  ring

theorem scaled_bounds {x : ℚ} (hx : 0 < x) :
    100 ≤ x * 10 ^ (2 - Int.log 10 x) ∧ x * 10 ^ (2 - Int.log 10 x) < 1000 := by
  have h1 := Int.zpow_log_le_self (b := 10) (by norm_num) hx
  have h2 := Int.lt_zpow_succ_log_self (b := 10) (by norm_num) x
  push_cast at h1 h2
  have hp : (0 : ℚ) < 10 ^ (2 - Int.log 10 x) := by positivity
  have e1 : (10 : ℚ) ^ Int.log 10 x * 10 ^ (2 - Int.log 10 x) = 100 := by
    rw [← zpow_add₀ (by norm_num)]; norm_num
  have e2 : (10 : ℚ) ^ (Int.log 10 x + 1) * 10 ^ (2 - Int.log 10 x) = 1000 := by
    rw [← zpow_add₀ (by norm_num)]
    rw [show Int.log 10 x + 1 + (2 - Int.log 10 x) = 3 by ring]; norm_num
  constructor
  · rw [← e1]; exact mul_le_mul_of_nonneg_right h1 hp.le
  · rw [← e2]; exact mul_lt_mul_of_pos_right h2 hp

theorem mantissa2_spec {x : ℚ} (hx : 0 < x) : ∃ d e, mantissa2 x = (d, e) ∧ 100 ≤ d ∧ d < 1000 ∧
    (d : ℚ) * 10 ^ (e - 2) = sciValue x ∧ (e = Int.log 10 x ∨
      e = Int.log 10 x + 1 ∧ 1000 ≤ roundHalfEven (x * 10 ^ (2 - Int.log 10 x))) := by
  obtain ⟨b1, b2⟩ := scaled_bounds hx
  have r1 : 100 ≤ roundHalfEven (x * 10 ^ (2 - Int.log 10 x)) := by
    have := round_mono (x := ((100 : ℕ) : ℚ)) (Nat.cast_nonneg _) (by push_cast; exact b1)
    rwa [round_nat] at this
  have r2 : roundHalfEven (x * 10 ^ (2 - Int.log 10 x)) ≤ 1000 := by
    have := round_mono (y := ((1000 : ℕ) : ℚ)) (le_trans (by norm_num) b1) (by push_cast; exact b2.le)
    rwa [round_nat] at this
  unfold mantissa2 sciValue
  rw [if_neg hx.ne']
  simp only
  split
  · rename_i h
    refine ⟨_, _, rfl, by norm_num, by norm_num, ?_, Or.inr ⟨rfl, h.ge⟩⟩
    rw [h, show Int.log 10 x + 1 - 2 = (Int.log 10 x - 2) + 1 by ring,
      zpow_add₀ (by norm_num : (10 : ℚ) ≠ 0)]
    push_cast; ring
  · rename_i h
    exact ⟨_, _, rfl, r1, lt_of_le_of_ne r2 h, rfl, Or.inl rfl⟩

theorem read_sci2 {x : ℚ} (hx : 0 ≤ x) : readUnsigned (sci2 x) = some (sciValue x) := by
  rcases eq_or_lt_of_le hx with rfl | hx
  · decide +kernel
  · obtain ⟨d, e, h, h1, h2, hv, -⟩ := mantissa2_spec hx
    unfold sci2
    rw [if_neg hx.ne', h]
    simp only
    rw [read_sci (fun _ => mem_dec) twoDigits_digit (dec_ne_nil _) (by simp [twoDigits])
      (read_exponentText e), digitsValue_dec, digitsValue_twoDigits (Nat.mod_lt _ (by norm_num)), ← hv]
    have hd := Nat.div_add_mod d 100
    have hq : (d : ℚ) = 100 * (d / 100 : ℕ) + (d % 100 : ℕ) := by exact_mod_cast hd.symm
    rw [show (twoDigits (d % 100)).length = 2 from rfl]
    congr 1
    conv_rhs => rw [hq, zpow_sub₀ (by norm_num : (10 : ℚ) ≠ 0)]
    norm_num
    ring

/-! ### How good they are -/

theorem fixed_closest {x : ℚ} (hx : 0 ≤ x) (k : ℤ) : |fixedValue x - x| ≤ |(k : ℚ) / 100 - x| := by
  have h := round_closest (x := x * 100) (by positivity) k
  have e1 : fixedValue x - x = (roundHalfEven (x * 100) - x * 100) / 100 := by
    unfold fixedValue; ring
  have e2 : (k : ℚ) / 100 - x = (k - x * 100) / 100 := by ring
  rw [e1, e2, abs_div, abs_div]
  exact div_le_div_of_nonneg_right h (abs_nonneg _)

theorem fixed_error {x : ℚ} (hx : 0 ≤ x) : |fixedValue x - x| ≤ 1 / 200 := by
  have h := round_error (x := x * 100) (by positivity)
  have e1 : fixedValue x - x = (roundHalfEven (x * 100) - x * 100) / 100 := by
    unfold fixedValue; ring
  rw [e1, abs_div, abs_of_pos (by norm_num : (0 : ℚ) < 100)]
  linarith

theorem sci_sub {x : ℚ} (hx : 0 < x) (q : ℚ) :
    q * 10 ^ (Int.log 10 x - 2) - x =
      (q - x * 10 ^ (2 - Int.log 10 x)) * 10 ^ (Int.log 10 x - 2) := by
  have : (10 : ℚ) ^ (2 - Int.log 10 x) * 10 ^ (Int.log 10 x - 2) = 1 := by
    rw [← zpow_add₀ (by norm_num)]; norm_num
  rw [sub_mul, mul_assoc, this, mul_one]

theorem sci_error {x : ℚ} (hx : 0 < x) : |sciValue x - x| ≤ |x| / 200 := by
  obtain ⟨b1, -⟩ := scaled_bounds hx
  have h := round_error (x := x * 10 ^ (2 - Int.log 10 x)) (by positivity)
  have h1 := Int.zpow_log_le_self (b := 10) (by norm_num) hx
  push_cast at h1
  unfold sciValue
  rw [if_neg hx.ne', sci_sub hx, abs_mul,
    abs_of_pos (by positivity : (0 : ℚ) < 10 ^ (Int.log 10 x - 2)), abs_of_pos hx]
  have e : (10 : ℚ) ^ (Int.log 10 x - 2) = 10 ^ Int.log 10 x / 100 := by
    rw [zpow_sub₀ (by norm_num)]; norm_num
  calc _ ≤ 1 / 2 * (10 : ℚ) ^ (Int.log 10 x - 2) := mul_le_mul_of_nonneg_right h (by positivity)
    _ ≤ x / 200 := by rw [e]; linarith

/-- no number with three significant digits is closer -/
theorem sci_closest {x : ℚ} (hx : 0 < x) {k : ℤ} (hk : |k| < 1000) (e : ℤ) :
    |sciValue x - x| ≤ |(k : ℚ) * 10 ^ e - x| := by
  obtain ⟨b1, b2⟩ := scaled_bounds hx
  have hp : (0 : ℚ) < 10 ^ (Int.log 10 x - 2) := by positivity
  have key : ∀ j : ℤ, |sciValue x - x| ≤ |(j : ℚ) * 10 ^ (Int.log 10 x - 2) - x| := by
    intro j
    unfold sciValue
    rw [if_neg hx.ne', sci_sub hx, sci_sub hx, abs_mul, abs_mul]
    exact mul_le_mul_of_nonneg_right (round_closest (by positivity) j) (abs_nonneg _)
  by_cases he : Int.log 10 x - 2 ≤ e
  · obtain ⟨n, hn⟩ := Int.eq_ofNat_of_zero_le (sub_nonneg.2 he)
    have := key (k * 10 ^ n)
    push_cast at this
    have e1 : (10 : ℚ) ^ e = 10 ^ n * 10 ^ (Int.log 10 x - 2) := by
      rw [← zpow_natCast (10 : ℚ) n, ← zpow_add₀ (by norm_num), ← hn]
      congr 1; ring
    rw [e1, ← mul_assoc]
    exact this
  · have h1 := Int.zpow_log_le_self (b := 10) (by norm_num) hx
    push_cast at h1
    have h2 := key 100
    have e2 : ((100 : ℤ) : ℚ) * 10 ^ (Int.log 10 x - 2) = 10 ^ Int.log 10 x := by
      rw [zpow_sub₀ (by norm_num)]; push_cast; norm_num; ring
    rw [e2, abs_of_nonpos (a := 10 ^ Int.log 10 x - x) (by linarith)] at h2
    have h3 : (k : ℚ) * 10 ^ e ≤ 10 ^ Int.log 10 x := by
      have hk' : (k : ℚ) ≤ 10 ^ (3 : ℤ) := by
        have := (abs_lt.1 hk).2
        have h' : (k : ℚ) < 1000 := by exact_mod_cast this
        norm_num; linarith
      calc (k : ℚ) * 10 ^ e ≤ 10 ^ (3 : ℤ) * 10 ^ e :=
            mul_le_mul_of_nonneg_right hk' (by positivity)
        _ = 10 ^ (3 + e) := by rw [zpow_add₀ (by norm_num)]
        _ ≤ 10 ^ Int.log 10 x := zpow_le_zpow_right₀ (by norm_num) (by omega)
    rw [abs_of_nonpos (a := (k : ℚ) * 10 ^ e - x) (by linarith)]
    linarith

theorem sci_bounds {x : ℚ} (hx : 0 < x) :
    (10 : ℚ) ^ Int.log 10 x ≤ sciValue x ∧ sciValue x ≤ 10 ^ (Int.log 10 x + 1) := by
  obtain ⟨b1, b2⟩ := scaled_bounds hx
  have r1 := round_mono (x := ((100 : ℕ) : ℚ)) (Nat.cast_nonneg _) (by push_cast; exact b1)
  have r2 := round_mono (y := ((1000 : ℕ) : ℚ)) (le_trans (by norm_num) b1) (by push_cast; exact b2.le)
  rw [round_nat] at r1 r2
  have r1' : (100 : ℚ) ≤ roundHalfEven (x * 10 ^ (2 - Int.log 10 x)) := by exact_mod_cast r1
  have r2' : (roundHalfEven (x * 10 ^ (2 - Int.log 10 x)) : ℚ) ≤ 1000 := by exact_mod_cast r2
  have hp : (0 : ℚ) < 10 ^ (Int.log 10 x - 2) := by positivity
  have e1 : (100 : ℚ) * 10 ^ (Int.log 10 x - 2) = 10 ^ Int.log 10 x := by
    rw [zpow_sub₀ (by norm_num)]; norm_num; ring
  have e2 : (1000 : ℚ) * 10 ^ (Int.log 10 x - 2) = 10 ^ (Int.log 10 x + 1) := by
    rw [zpow_sub₀ (by norm_num), zpow_add₀ (by norm_num)]; norm_num; ring
  unfold sciValue
  rw [if_neg hx.ne', ← e1, ← e2]
  exact ⟨mul_le_mul_of_nonneg_right r1' hp.le, mul_le_mul_of_nonneg_right r2' hp.le⟩

theorem sci_mono {x y : ℚ} (hx : 0 ≤ x) (h : x ≤ y) : sciValue x ≤ sciValue y := by
  rcases eq_or_lt_of_le hx with rfl | hx
  · rw [show sciValue 0 = 0 from by simp [sciValue]]
    unfold sciValue
    split
    · exact le_rfl
    · positivity
  · have hy := lt_of_lt_of_le hx h
    rcases eq_or_lt_of_le (Int.log_mono_right (b := 10) hx h) with e | e
    · unfold sciValue
      rw [if_neg hx.ne', if_neg hy.ne', e]
      refine mul_le_mul_of_nonneg_right ?_ (by positivity)
      exact_mod_cast round_mono (by positivity) (mul_le_mul_of_nonneg_right h (by positivity))
    · exact (sci_bounds hx).2.trans
        ((zpow_le_zpow_right₀ (by norm_num) (by omega)).trans (sci_bounds hy).1)

theorem fixed_mono {x y : ℚ} (hx : 0 ≤ x) (h : x ≤ y) : fixedValue x ≤ fixedValue y := by
  unfold fixedValue
  have := round_mono (x := x * 100) (y := y * 100) (by positivity) (by linarith)
  have h' : (roundHalfEven (x * 100) : ℚ) ≤ roundHalfEven (y * 100) := by exact_mod_cast this
  linarith

/-- the number shown for a number that is not negative -/
def shownValue (x : ℚ) : ℚ := if 10000 ≤ x ∨ x ≤ float1em2 then sciValue x else fixedValue x

theorem shown_mono {x y : ℚ} (hx : 0 ≤ x) (h : x ≤ y) : shownValue x ≤ shownValue y := by
  have c1 : sciValue float1em2 = 1 / 100 := by decide +kernel
  have c2 : sciValue 10000 = 10000 := by decide +kernel
  have c3 : fixedValue 10000 = 10000 := by decide +kernel
  have c4 : fixedValue (1 / 100) = 1 / 100 := by decide +kernel
  have c5 : (1 / 100 : ℚ) ≤ float1em2 := by unfold float1em2; norm_num
  unfold shownValue
  split
  · rename_i h1
    split
    · exact sci_mono hx h
    · rename_i h2
      push Not at h2
      have h1 : x ≤ float1em2 := h1.resolve_left (by intro h'; linarith [h2.1])
      have a1 := sci_mono hx h1
      have a2 := fixed_mono (x := 1 / 100) (y := y) (by norm_num) (by linarith [h2.2])
      rw [c1] at a1; rw [c4] at a2
      linarith
  · rename_i h1
    push Not at h1
    split
    · rename_i h2
      have h2 : 10000 ≤ y := h2.resolve_right (by intro h'; linarith [h1.2])
      have a1 := fixed_mono hx h1.1.le
      have a2 := sci_mono (x := 10000) (by norm_num) h2
      rw [c3] at a1; rw [c2] at a2
      linarith
    · exact fixed_mono hx h

theorem shown_pos {x : ℚ} (hx : 0 < x) : 0 < shownValue x := by
  unfold shownValue
  split
  · exact lt_of_lt_of_le (by positivity) (sci_bounds hx).1
  · rename_i h
    push Not at h
    have := (abs_le.1 (fixed_error hx.le)).1
    have c5 : (1 / 100 : ℚ) ≤ float1em2 := by unfold float1em2; norm_num
    linarith [h.2]

theorem read_format (x : ℚ) :
    readNumber (formatNumber (.fin x)) = some (if x < 0 then -shownValue |x| else shownValue |x|) := by
  unfold formatNumber
  have := read_padded (s := if 10000 ≤ |x| ∨ |x| ≤ float1em2 then sci2 |x| else fixed2 |x|)
    (v := shownValue |x|) 9 (decide (x < 0)) (by
      unfold shownValue
      split
      · exact read_sci2 (abs_nonneg x)
      · exact read_fixed2 _)
  simpa using this

theorem sci2_length {x : ℚ} (hx : x = 0 ∨ 10 ^ (-99 : ℤ) ≤ x) (h : x < 9995 * 10 ^ 96) (h0 : 0 ≤ x) :
    (sci2 x).length = 8 := by
  rcases eq_or_lt_of_le h0 with rfl | h0
  · decide +kernel
  · have hx := hx.resolve_left h0.ne'
    obtain ⟨d, e, hm, h1, h2, -, he⟩ := mantissa2_spec h0
    have l1 : -99 ≤ Int.log 10 x := by
      rw [← Int.zpow_le_iff_le_log (by norm_num) h0]; push_cast; exact hx
    have l2 : Int.log 10 x < 100 := by
      rw [← Int.lt_zpow_iff_log_lt (by norm_num) h0]
      push_cast
      refine h.trans ?_
      norm_num
    have l3 : e.natAbs < 100 := by
      rcases he with he | ⟨he, hr⟩
      · omega
      · by_cases h99 : Int.log 10 x = 99
        · exfalso
          rw [h99] at hr
          obtain ⟨b1, -⟩ := scaled_bounds h0
          rw [h99] at b1
          have a := (abs_le.1 (round_error (x := x * 10 ^ (2 - 99 : ℤ)) (by positivity))).2
          have hr' : (1000 : ℚ) ≤ roundHalfEven (x * 10 ^ (2 - 99 : ℤ)) := by exact_mod_cast hr
          have hc : x * 10 ^ (2 - 99 : ℤ) < 9995 / 10 := by
            calc x * 10 ^ (2 - 99 : ℤ) < 9995 * 10 ^ 96 * 10 ^ (2 - 99 : ℤ) :=
                  mul_lt_mul_of_pos_right h (by positivity)
              _ = 9995 / 10 := by norm_num
          generalize x * 10 ^ (2 - 99 : ℤ) = y at a hr' hc
          linarith
        · omega
    unfold sci2
    rw [if_neg h0.ne', hm]
    simp [dec_lt_base (show d / 100 < 10 by omega), twoDigits, exponentText_length l3]

theorem fixed2_length {x : ℚ} (h0 : 0 ≤ x) (h : x < 10000) : (fixed2 x).length ≤ 8 := by
  unfold fixed2
  have hr : roundHalfEven (x * 100) ≤ 1000000 := by
    have := round_mono (x := x * 100) (y := ((1000000 : ℕ) : ℚ)) (by positivity) (by push_cast; linarith)
    rwa [round_nat] at this
  have := dec_length_le (n := roundHalfEven (x * 100) / 100) (k := 5) (by norm_num) (by omega)
  simp [twoDigits]
  omega

theorem padLeft_length (w : ℕ) (s : List Char) : (padLeft w s).length = max w s.length := by
  simp [padLeft]; omega

/-- **C108.** The text of a finite number `x` reads back as a number `v` of the same sign.
For `0.01 < |x| < 10000` it is a closest number with two decimals, at most 0.005 away; otherwise a
closest number with three significant digits, at most 0.5 % away.  The text has 9 characters for all
numbers up to the size of `1e99` (and at least 9 always). -/
theorem C108_number_text (x : ℚ) :
    (∃ v, readNumber (formatNumber (.fin x)) = some v ∧ SignType.sign v = SignType.sign x ∧
      (5764607523034235 / 2 ^ 59 < |x| ∧ |x| < 10000 →
        |v - x| ≤ 5 / 1000 ∧ ∀ k : ℤ, |v - x| ≤ |(k : ℚ) / 100 - x|) ∧
      (|x| ≤ 5764607523034235 / 2 ^ 59 ∨ 10000 ≤ |x| →
        |v - x| ≤ 5 / 1000 * |x| ∧ ∀ k e : ℤ, |k| < 1000 → |v - x| ≤ |(k : ℚ) * 10 ^ e - x|)) ∧
    9 ≤ (formatNumber (.fin x)).length ∧
    ((x = 0 ∨ 10 ^ (-99 : ℤ) ≤ |x|) → |x| < 9995 * 10 ^ 96 → (formatNumber (.fin x)).length = 9) := by
  have hf : (5764607523034235 / 2 ^ 59 : ℚ) = float1em2 := by unfold float1em2; norm_num
  rw [hf]
  refine ⟨⟨_, read_format x, ?_, ?_, ?_⟩, ?_, ?_⟩
  · rcases lt_trichotomy x 0 with h | rfl | h
    · rw [if_pos h, sign_neg h, sign_neg (neg_neg_of_pos (shown_pos (abs_pos.2 h.ne)))]
    · decide +kernel
    · rw [if_neg (not_lt.2 h.le), sign_pos h, sign_pos (shown_pos (abs_pos.2 h.ne'))]
  · rintro ⟨h1, h2⟩
    have e : shownValue |x| = fixedValue |x| := by
      unfold shownValue; rw [if_neg]; push Not; exact ⟨h2, h1⟩
    rw [e]
    by_cases hx : x < 0
    · rw [if_pos hx, abs_of_neg hx]
      have a := fixed_error (x := -x) (by linarith)
      have b := fixed_closest (x := -x) (by linarith)
      rw [show fixedValue (-x) - -x = -(-fixedValue (-x) - x) by ring, abs_neg] at a
      refine ⟨a.trans (by norm_num), fun k => ?_⟩
      have := b (-k)
      rw [show fixedValue (-x) - -x = -(-fixedValue (-x) - x) by ring, abs_neg] at this
      refine this.trans (le_of_eq ?_)
      rw [← abs_neg]; congr 1; push_cast; ring
    · rw [if_neg hx, abs_of_nonneg (not_lt.1 hx)]
      exact ⟨(fixed_error (not_lt.1 hx)).trans (by norm_num), fixed_closest (not_lt.1 hx)⟩
  · intro h
    have e : shownValue |x| = sciValue |x| := by
      unfold shownValue; rw [if_pos (Or.symm h)]
    rw [e]
    rcases lt_trichotomy x 0 with hx | rfl | hx
    · rw [if_pos hx, abs_of_neg hx]
      have a := sci_error (x := -x) (by linarith)
      have b := fun k => sci_closest (x := -x) (k := k) (by linarith)
      rw [show sciValue (-x) - -x = -(-sciValue (-x) - x) by ring, abs_neg, abs_neg,
        abs_of_neg hx] at a
      refine ⟨a.trans (le_of_eq (by ring)), fun k e hk => ?_⟩
      have := b (-k) (by rwa [abs_neg]) e
      rw [show sciValue (-x) - -x = -(-sciValue (-x) - x) by ring, abs_neg] at this
      refine this.trans (le_of_eq ?_)
      rw [← abs_neg]; congr 1; push_cast; ring
    · simp only [lt_irrefl, if_false, abs_zero, sciValue, if_true, sub_zero, mul_zero, le_refl, true_and]
      exact fun _ _ _ => abs_nonneg _
    · rw [if_neg (not_lt.2 hx.le), abs_of_pos hx]
      have a := sci_error hx
      rw [abs_of_pos hx] at a
      exact ⟨a.trans (le_of_eq (by ring)), fun k e hk => sci_closest hx hk e⟩
  · unfold formatNumber; rw [padLeft_length]; exact le_max_left _ _
  · intro h1 h2
    unfold formatNumber
    rw [padLeft_length]
    refine max_eq_left ?_
    have hs : (if x < 0 then ['-'] else ([] : List Char)).length ≤ 1 := by split <;> simp
    rw [List.length_append]
    by_cases hb : 10000 ≤ |x| ∨ |x| ≤ float1em2
    · rw [if_pos hb, sci2_length (by simpa using h1) h2 (abs_nonneg x)]; omega
    · rw [if_neg hb]
      push Not at hb
      have := fixed2_length (abs_nonneg x) hb.1
      omega

example : formatNumber (.fin (-123456789 / 100)) = "-1.23e+06".toList ∧
    formatNumber (.fin (22 / 7)) = "     3.14".toList ∧
    formatNumber (.fin (9999999 / 1000)) = " 10000.00".toList ∧
    formatNumber (.fin (1 / 300)) = " 3.33e-03".toList ∧
    readNumber " 3.33e-03".toList = some (333 / 100000) := by decide +kernel

/-- **C108.** Of two numbers the larger is never shown as the smaller one. -/
theorem C108_monotone {x y : ℚ} (h : x ≤ y) {v w : ℚ}
    (hv : readNumber (formatNumber (.fin x)) = some v)
    (hw : readNumber (formatNumber (.fin y)) = some w) : v ≤ w := by
  rw [read_format] at hv hw
  cases hv; cases hw
  by_cases hx : x < 0
  · by_cases hy : y < 0
    · rw [if_pos hx, if_pos hy, abs_of_neg hx, abs_of_neg hy]
      exact neg_le_neg (shown_mono (by linarith) (by linarith))
    · rw [if_pos hx, if_neg hy]
      have a := shown_pos (abs_pos.2 hx.ne)
      rcases eq_or_lt_of_le (not_lt.1 hy) with rfl | hy
      · have : shownValue |0| = 0 := by decide +kernel
        rw [this]; linarith
      · have b := shown_pos (abs_pos.2 hy.ne')
        linarith
  · rw [if_neg hx, if_neg (by linarith : ¬ y < 0), abs_of_nonneg (not_lt.1 hx),
      abs_of_nonneg (by linarith)]
    exact shown_mono (not_lt.1 hx) h

example : readNumber (formatNumber (.fin (9999999 / 1000))) = some 10000 ∧
    readNumber (formatNumber (.fin 10000)) = some 10000 ∧
    readNumber (formatNumber (.fin (1 / 100))) = some (1 / 100) ∧
    readNumber (formatNumber (.fin (11 / 1000))) = some (1 / 100) := by decide +kernel

/-- **C108.** Infinities, `nan` and the negative zero are shown as such, in 9 characters. -/
theorem C108_special : formatNumber .nan = "      nan".toList ∧
    formatNumber (.inf false) = "      inf".toList ∧ formatNumber (.inf true) = "     -inf".toList ∧
    formatNumber .negZero = "-0.00e+00".toList ∧ formatNumber (.fin 0) = " 0.00e+00".toList := by
  decide +kernel

end Verif
