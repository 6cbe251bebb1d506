import Mathlib.Data.Int.Log
import Mathlib.Data.Rat.Floor
import Verif.Model.LogFiles

/-!
# Numbers as text

Models `format_number_to_str`, `/repo/pymcmcstat/utilities/general.py:29-42`, including the parts of
Python's `format` it uses (formats `9.2f` and `9.2e`).
-/

namespace Verif

/-- A Python float: `fin x` stands for the finite floats with exact value `x` (for `0` the positive
zero), `negZero` for `-0.0`. Source: `utilities/general.py:29-42`. -/
inductive PyNum where
  | nan
  | inf (neg : Bool)
  | negZero
  | fin (x : ℚ)

/-- the nearest integer, ties to the even one: the rounding of Python's `format` (correctly rounded
conversion of the exact value). Source: `utilities/general.py:29-42`. -/
def roundHalfEven (x : ℚ) : ℕ :=
  let f := ⌊x⌋₊
  if x - f < 1 / 2 then f
  else if 1 / 2 < x - f then f + 1
  else if f % 2 = 0 then f else f + 1

/-- the last two decimal digits. Source: `utilities/general.py:29-42`. -/
def twoDigits (k : ℕ) : List Char := [(k / 10 % 10).digitChar, (k % 10).digitChar]

/-- `'{:.2f}'` of a number that is not negative. Source: `utilities/general.py:29-42`. -/
def fixed2 (x : ℚ) : List Char :=
  let k := roundHalfEven (x * 100)
  dec (k / 100) ++ '.' :: twoDigits (k % 100)

/-- mantissa (100 to 999, in hundredths) and exponent of `'{:.2e}'` of a positive number.
Source: `utilities/general.py:29-42`. -/
def mantissa2 (x : ℚ) : ℕ × ℤ :=
  let e := Int.log 10 x
  let d := roundHalfEven (x * 10 ^ (2 - e))
  if d = 1000 then (100, e + 1) else (d, e)

/-- an exponent: sign and at least two digits. Source: `utilities/general.py:29-42`. -/
def exponentText (e : ℤ) : List Char :=
  (if e < 0 then '-' else '+') :: (if e.natAbs < 10 then '0' :: dec e.natAbs else dec e.natAbs)

/-- `'{:.2e}'` of a number that is not negative. Source: `utilities/general.py:29-42`. -/
def sci2 (x : ℚ) : List Char :=
  if x = 0 then "0.00e+00".toList
  else
    let (d, e) := mantissa2 x
    dec (d / 100) ++ '.' :: (twoDigits (d % 100) ++ 'e' :: exponentText e)

/-- numbers are put at the right end of a field of the given width. Source: `utilities/general.py:29-42`. -/
def padLeft (w : ℕ) (s : List Char) : List Char := List.replicate (w - s.length) ' ' ++ s

/-- the float `1e-2`, which is a little more than 1/100. Source: `utilities/general.py:29-42`. -/
def float1em2 : ℚ := 5764607523034235 / 576460752303423488

/-- `format_number_to_str`, `utilities/general.py:29-42`.  (Comparisons with `nan` are false; the
formats show `nan` and `inf` without digits.) -/
def formatNumber : PyNum → List Char
  | .nan => padLeft 9 "nan".toList
  | .inf neg => padLeft 9 ((if neg then ['-'] else []) ++ "inf".toList)
  | .negZero => padLeft 9 ('-' :: sci2 0)
  | .fin x => padLeft 9 ((if x < 0 then ['-'] else []) ++
      if 10000 ≤ |x| ∨ |x| ≤ float1em2 then sci2 |x| else fixed2 |x|)

end Verif
