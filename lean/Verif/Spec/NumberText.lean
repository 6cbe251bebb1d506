import Mathlib.Algebra.Order.Group.Unbundled.Abs
import Mathlib.Data.Rat.Floor
import Mathlib.Data.Sign.Basic
import Verif.Model.NumberText

/-!
# Reading numbers

A reader of decimal numbers, independent of the code that writes them.
-/

namespace Verif

/-- the number written by a list of decimal digits -/
def digitsValue (s : List Char) : ℕ := s.foldl (fun a c => 10 * a + (c.toNat - '0'.toNat)) 0

/-- an exponent: `+` or `-` and digits -/
def readExponent : List Char → Option ℤ
  | '+' :: s => if s ≠ [] ∧ s.all Char.isDigit then some (digitsValue s) else none
  | '-' :: s => if s ≠ [] ∧ s.all Char.isDigit then some (-(digitsValue s : ℤ)) else none
  | _ => none

/-- digits, a point, digits, and possibly `e` with an exponent -/
def readUnsigned (s : List Char) : Option ℚ :=
  let w := s.takeWhile Char.isDigit
  match s.dropWhile Char.isDigit with
  | '.' :: r =>
    let f := r.takeWhile Char.isDigit
    let v : ℚ := digitsValue w + digitsValue f / 10 ^ f.length
    if w = [] ∨ f = [] then none
    else match r.dropWhile Char.isDigit with
      | [] => some v
      | 'e' :: t => (readExponent t).map fun e => v * 10 ^ e
      | _ => none
  | _ => none

/-- a decimal number: blanks, possibly a minus sign, digits, a point, digits, possibly an exponent -/
def readNumber (s : List Char) : Option ℚ :=
  match s.dropWhile (· == ' ') with
  | '-' :: r => (readUnsigned r).map fun v => -v
  | r => readUnsigned r

end Verif
