import Verif.Model.Iter
import Mathlib.Data.Nat.Sqrt

/-!
# The standard deviation
-/

namespace Hdr

namespace F64

/-- the integer nearest to the square root of `r ≥ 0`, ties to even -/
def sqrtInt (r : ℚ) : Nat :=
  let n := Nat.sqrt ⌊r⌋.toNat
  if (n + 1 / 2 : ℚ) ^ 2 < r then n + 1
  else if r = (n + 1 / 2 : ℚ) ^ 2 ∧ n % 2 = 1 then n + 1
  else n

/-- exponent of the last place of the square root of a positive rational -/
def sqrtExp (q : ℚ) : ℤ := Int.log 2 q / 2 - 52

/-- The square root of a positive rational, correctly rounded to 53 bits (IEEE-754-2019 section
5.4.1): its nearest multiple of the last place.  The root of a binary64 number is always in the
normal range, so there is neither overflow nor underflow. -/
def sqrtPos (q : ℚ) : ℚ := sqrtInt (q / 4 ^ sqrtExp q) * 2 ^ sqrtExp q

/-- `f64::sqrt` -/
def sqrt : F64 → F64
  | nan => nan
  | pinf => pinf
  | ninf => nan
  | fin q => if q < 0 then nan else if q = 0 then fin 0 else fin (sqrtPos q)

end F64

/-- `stdev`, lib.rs:1307-1319.  For an empty histogram `variance` is 0 and so is its root. -/
def Hist.stdev {T : CounterTy} (h : Hist T) : M F64 :=
  if h.totalCount = 0 then pure (.fin 0)
  else do
    let v ← h.variance
    pure (F64.sqrt v)

end Hdr
