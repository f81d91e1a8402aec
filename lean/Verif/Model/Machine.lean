/-!
# Machine arithmetic with explicit panics

Rust integers are modelled by `Nat` (unsigned) or `Int` (signed) and every operation that can panic
in a debug build returns in the monad `M`.  Values are always meant to be inside the range of their
Rust type; the operations below are the only way the model computes with them.
-/

namespace Hdr

/-- Why a Rust thread panicked. `overflow`: arithmetic overflow / over-long shift (debug builds);
`assert`: `assert!`/`debug_assert!`; `expect`: `unwrap`/`expect` on `None`/`Err`, `panic!`;
`index`: slice index out of bounds; `oob`: an *unchecked* (`get_unchecked`) access out of bounds, i.e.
undefined behaviour; `capacity`: a `Vec` that cannot be as large as asked for (`Model/Width` only); `fuel`: not a Rust panic – the model ran out of loop fuel (shown unreachable). -/
inductive Panic where
  | overflow | assert | expect | index | oob | capacity | fuel
  deriving DecidableEq, Repr

/-- Computations that may panic. -/
abbrev M (α : Type) := Except Panic α

/-- `u64::max_value()` -/
abbrev U64MAX : Nat := 18446744073709551615

/-- Run-time check of an `assert!` / `debug_assert!`. -/
def assertM (b : Bool) : M Unit := if b then .ok () else .error .assert

/-- `Option::expect` / `Option::unwrap`. -/
def expectM {α : Type} : Option α → M α
  | some a => .ok a
  | none => .error .expect

/-- `u8 + u8` -/
def addU8 (a b : Nat) : M Nat := if a + b < 256 then .ok (a + b) else .error .overflow

/-- `u32 + u32` -/
def addU32 (a b : Nat) : M Nat := if a + b < 4294967296 then .ok (a + b) else .error .overflow

/-- `u32 * u32` -/
def mulU32 (a b : Nat) : M Nat := if a * b < 4294967296 then .ok (a * b) else .error .overflow

/-- `u64 + u64` (also `usize + usize` on a 64-bit target) -/
def addU64 (a b : Nat) : M Nat := if a + b ≤ U64MAX then .ok (a + b) else .error .overflow

/-- `u64 * u64` -/
def mulU64 (a b : Nat) : M Nat := if a * b ≤ U64MAX then .ok (a * b) else .error .overflow

/-- `a - b` for any unsigned type -/
def subU (a b : Nat) : M Nat := if b ≤ a then .ok (a - b) else .error .overflow

/-- `u64 << n`: panics if `n ≥ 64`, otherwise drops the bits shifted out. -/
def shlU64 (a n : Nat) : M Nat := if n < 64 then .ok (a * 2 ^ n % 2 ^ 64) else .error .overflow

/-- `u64 >> n`: panics if `n ≥ 64`. -/
def shrU64 (a n : Nat) : M Nat := if n < 64 then .ok (a / 2 ^ n) else .error .overflow

/-- `u32 << n`: panics if `n ≥ 32`, otherwise drops the bits shifted out. -/
def shlU32 (a n : Nat) : M Nat := if n < 32 then .ok (a * 2 ^ n % 2 ^ 32) else .error .overflow

/-- Reinterpret the low 32 bits as an `i32` (`as i32`, and the result of an `i32` shift). -/
def wrapI32 (x : Int) : Int := (x + 2147483648) % 4294967296 - 2147483648

/-- `i32 << n` -/
def shlI32 (a : Int) (n : Nat) : M Int :=
  if n < 32 then .ok (wrapI32 (a * 2 ^ n)) else .error .overflow

/-- checked `i32` result -/
def chkI32 (x : Int) : M Int :=
  if -2147483648 ≤ x ∧ x ≤ 2147483647 then .ok x else .error .overflow

/-- checked `i64` result (also `isize`) -/
def chkI64 (x : Int) : M Int :=
  if -9223372036854775808 ≤ x ∧ x ≤ 9223372036854775807 then .ok x else .error .overflow

/-- `u64::saturating_add` -/
def satAdd (a b : Nat) : Nat := min (a + b) U64MAX

/-- `u64::leading_zeros` -/
def lz64 (x : Nat) : Nat := if x = 0 then 64 else 63 - Nat.log2 x

/-- `ToPrimitive::to_usize` on a signed integer, 64-bit target. -/
def toUsize (x : Int) : Option Nat := if 0 ≤ x then some x.toNat else none

/-- The four counter types `T: Counter` (src/core/counter.rs:25-67). -/
inductive CounterTy where
  | u8 | u16 | u32 | u64
  deriving DecidableEq, Repr

/-- `T::max_value()` -/
def CounterTy.max : CounterTy → Nat
  | .u8 => 255
  | .u16 => 65535
  | .u32 => 4294967295
  | .u64 => U64MAX

/-- `num::Saturating::saturating_add` on `T` -/
def CounterTy.satAdd (T : CounterTy) (a b : Nat) : Nat := min (a + b) T.max

/-- `num::CheckedAdd::checked_add` on `T` -/
def CounterTy.checkedAdd (T : CounterTy) (a b : Nat) : Option Nat :=
  if a + b ≤ T.max then some (a + b) else none

/-- `num::CheckedSub::checked_sub` on any unsigned type -/
def checkedSub (a b : Nat) : Option Nat := if b ≤ a then some (a - b) else none

end Hdr
