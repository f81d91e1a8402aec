import Mathlib.Data.Rat.Floor
import Mathlib.Algebra.Order.Field.Rat

/-!
# Specification vocabulary: rounding to binary64 (IEEE-754-2019 sections 3.3 and 4.3.1)
-/

namespace Hdr

/-- numbers with at most 53 significant bits and no bit below `2 ^ -1074`; the finite binary64 numbers are those of
magnitude below `2 ^ 1024` -/
def Bits53 (x : ℚ) : Prop := ∃ k e : ℤ, |k| < 2 ^ 53 ∧ -1074 ≤ e ∧ x = k * 2 ^ e

/-- `r` is the number with 53 bits nearest to `q`; when another one is as near, `r` is the one with an even last digit
(an even multiple of the distance between the two) -/
def NearestEven (q r : ℚ) : Prop :=
  Bits53 r ∧ (∀ y, Bits53 y → |r - q| ≤ |y - q|) ∧
    ∀ y, Bits53 y → |y - q| = |r - q| → y ≠ r → ∃ z : ℤ, r = 2 * z * |y - r|

end Hdr
