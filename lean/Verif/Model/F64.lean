import Mathlib.Data.Rat.Floor
import Mathlib.Data.Int.Log
import Verif.Model.Machine

/-!
# IEEE-754 binary64 arithmetic, as used by the floating point parts of the library

A value is NaN, an infinity, or a rational number.  Every arithmetic operation computes the exact
rational result and rounds it to nearest, ties to even, with 53 significant bits, minimum exponent
-1074 and overflow to infinity (IEEE-754-2019 section 4.3.1, the only mode Rust uses).
Simplifications: `-0.0` is identified with `0.0` (no modelled function distinguishes them), NaN
payloads are not modelled, and `log2` is a parameter (see `Fp`, `Lg`).
-/

namespace Hdr

/-- A binary64 value. -/
inductive F64 where
  | nan
  | pinf
  | ninf
  | fin (q : ℚ)
  deriving DecidableEq

namespace F64

/-- round a rational to an integer, to nearest, ties to even -/
def rhe (x : ℚ) : ℤ :=
  let f := ⌊x⌋
  if x - f < 1 / 2 then f
  else if 1 / 2 < x - f then f + 1
  else if f % 2 = 0 then f else f + 1

/-- exponent of the last place of a positive rational: 53 significant bits, at least -1074 -/
def ulpExp (q : ℚ) : ℤ := max (Int.log 2 q - 52) (-1074)

/-- rounding of a positive rational, ignoring overflow -/
def rndPos (q : ℚ) : ℚ := rhe (q / 2 ^ ulpExp q) * 2 ^ ulpExp q

/-- rounding of a rational, ignoring overflow -/
def rndQ (q : ℚ) : ℚ := if q = 0 then 0 else if 0 < q then rndPos q else - rndPos (-q)

/-- rounding of a rational to binary64 -/
def rnd (q : ℚ) : F64 :=
  if 2 ^ 1024 ≤ rndQ q then pinf
  else if rndQ q ≤ - 2 ^ 1024 then ninf
  else fin (rndQ q)

/-- `n as f64` for an unsigned integer -/
def ofNat (n : Nat) : F64 := rnd n

/-- sign of a finite or infinite value as used in the infinity rules -/
def neg : F64 → F64
  | nan => nan
  | pinf => ninf
  | ninf => pinf
  | fin q => fin (-q)

/-- `a + b` -/
def add : F64 → F64 → F64
  | nan, _ => nan
  | _, nan => nan
  | pinf, ninf => nan
  | ninf, pinf => nan
  | pinf, _ => pinf
  | _, pinf => pinf
  | ninf, _ => ninf
  | _, ninf => ninf
  | fin a, fin b => rnd (a + b)

/-- `a - b` -/
def sub (a b : F64) : F64 := add a (neg b)

/-- `a * b` -/
def mul : F64 → F64 → F64
  | nan, _ => nan
  | _, nan => nan
  | fin a, fin b => rnd (a * b)
  | pinf, pinf => pinf
  | ninf, ninf => pinf
  | pinf, ninf => ninf
  | ninf, pinf => ninf
  | pinf, fin b => if b = 0 then nan else if 0 < b then pinf else ninf
  | ninf, fin b => if b = 0 then nan else if 0 < b then ninf else pinf
  | fin a, pinf => if a = 0 then nan else if 0 < a then pinf else ninf
  | fin a, ninf => if a = 0 then nan else if 0 < a then ninf else pinf

/-- `a / b`; a zero divisor counts as `+0.0` -/
def div : F64 → F64 → F64
  | nan, _ => nan
  | _, nan => nan
  | fin a, fin b =>
    if b = 0 then (if a = 0 then nan else if 0 < a then pinf else ninf) else rnd (a / b)
  | fin _, pinf => fin 0
  | fin _, ninf => fin 0
  | pinf, fin b => if 0 ≤ b then pinf else ninf
  | ninf, fin b => if 0 ≤ b then ninf else pinf
  | pinf, pinf => nan
  | pinf, ninf => nan
  | ninf, pinf => nan
  | ninf, ninf => nan

/-- `a < b` -/
def lt : F64 → F64 → Bool
  | nan, _ => false
  | _, nan => false
  | _, ninf => false
  | pinf, _ => false
  | ninf, _ => true
  | fin _, pinf => true
  | fin a, fin b => decide (a < b)

/-- `a == b` -/
def feq : F64 → F64 → Bool
  | nan, _ => false
  | _, nan => false
  | pinf, pinf => true
  | ninf, ninf => true
  | fin a, fin b => decide (a = b)
  | _, _ => false

/-- `a >= b` is `b <= a`; `a <= b` -/
def le (a b : F64) : Bool := lt a b || feq a b

/-- `f64::ceil`.  The ceiling of a binary64 number is a binary64 number, so no rounding. -/
def ceil : F64 → F64
  | fin q => fin ⌈q⌉
  | x => x

/-- `x as u64`: truncates, saturates, NaN gives 0 -/
def toU64 : F64 → Nat
  | nan => 0
  | ninf => 0
  | pinf => U64MAX
  | fin q => min ⌊q⌋.toNat U64MAX

end F64

end Hdr
