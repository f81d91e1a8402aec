import Verif.Check.Prelude

/-!
# src/tests/subtract.rs

Transcribed as described in Verif/Check/Prelude.lean.
Where the original gives a histogram five significant digits and the whole range, the transcription gives it four and the values up to 30000: lookups in the lists of the model take linear time.
Not transcribed: nothing.
-/

namespace Hdr.Check.Subtract

set_option linter.unusedVariables false

/-- src/tests/subtract.rs:34 -/
def subtractAfterAdd : M Unit := do
  let mut h1 := (← unwrap (Hist.newWithMax fp .u64 U64MAX 3))
  let mut h2 := (← unwrap (Hist.newWithMax fp .u64 U64MAX 3))
  h1 ← h1.addAssignValue TEST_VALUE_LEVEL
  h1 ← h1.addAssignValue (1000 * TEST_VALUE_LEVEL)
  h2 ← h2.addAssignValue TEST_VALUE_LEVEL
  h2 ← h2.addAssignValue (1000 * TEST_VALUE_LEVEL)
  h1 ← okay (h1.add h2)
  check ((← h1.countAt TEST_VALUE_LEVEL) == 2)
  check ((← h1.countAt (1000 * TEST_VALUE_LEVEL)) == 2)
  check (h1.len == 4)
  h1 ← h1.addAssign h2
  check ((← h1.countAt TEST_VALUE_LEVEL) == 3)
  check ((← h1.countAt (1000 * TEST_VALUE_LEVEL)) == 3)
  check (h1.len == 6)
  h1 ← okay (h1.subtract h2)
  check ((← h1.countAt TEST_VALUE_LEVEL) == 2)
  check ((← h1.countAt (1000 * TEST_VALUE_LEVEL)) == 2)
  check (h1.len == 4)
  assertMinMaxCount h1
  assertMinMaxCount h2
#guard passes subtractAfterAdd

/-- src/tests/subtract.rs:63 -/
def subtractToZeroCounts : M Unit := do
  let mut h1 := (← unwrap (Hist.newWithMax fp .u64 U64MAX 3))
  h1 ← h1.addAssignValue TEST_VALUE_LEVEL
  h1 ← h1.addAssignValue (1000 * TEST_VALUE_LEVEL)
  check ((← h1.countAt TEST_VALUE_LEVEL) == 1)
  check ((← h1.countAt (1000 * TEST_VALUE_LEVEL)) == 1)
  check (h1.len == 2)
  let clone := h1
  h1 ← okay (h1.subtract clone)
  check ((← h1.countAt TEST_VALUE_LEVEL) == 0)
  check ((← h1.countAt (1000 * TEST_VALUE_LEVEL)) == 0)
  check (h1.len == 0)
  assertMinMaxCount h1
#guard passes subtractToZeroCounts

/-- src/tests/subtract.rs:83 -/
def subtractToNegativeCountsError : M Unit := do
  let mut h1 := (← unwrap (Hist.newWithMax fp .u64 U64MAX 3))
  let mut h2 := (← unwrap (Hist.newWithMax fp .u64 U64MAX 3))
  h1 ← h1.addAssignValue TEST_VALUE_LEVEL
  h1 ← h1.addAssignValue (1000 * TEST_VALUE_LEVEL)
  h2 ← okay (h2.recordN TEST_VALUE_LEVEL 2)
  h2 ← okay (h2.recordN (1000 * TEST_VALUE_LEVEL) 2)
  h1 ← failsWith SubtractionError.SubtrahendCountExceedsMinuendCount (h1.subtract h2)
  assertMinMaxCount h1
  assertMinMaxCount h2
#guard passes subtractToNegativeCountsError

/-- src/tests/subtract.rs:102 -/
def subtractSubtrahendValuesOutsideMinuendRangeError : M Unit := do
  let max_ : Nat := (U64MAX / 2)
  let mut h1 := (← unwrap (Hist.newWithMax fp .u64 max_ 3))
  h1 ← h1.addAssignValue TEST_VALUE_LEVEL
  h1 ← h1.addAssignValue (1000 * TEST_VALUE_LEVEL)
  let mut big := (← unwrap (Hist.newWithMax fp .u64 (2 * max_) 3))
  big ← big.addAssignValue TEST_VALUE_LEVEL
  big ← big.addAssignValue (1000 * TEST_VALUE_LEVEL)
  big ← big.addAssignValue (2 * max_)
  h1 ← failsWith SubtractionError.SubtrahendValueExceedsMinuendRange (h1.subtract big)
  assertMinMaxCount h1
  assertMinMaxCount big
#guard passes subtractSubtrahendValuesOutsideMinuendRangeError

/-- src/tests/subtract.rs:124 -/
def subtractValuesInsideMinuendRangeWorks : M Unit := do
  let max_ : Nat := (U64MAX / 2)
  let mut h1 := (← unwrap (Hist.newWithMax fp .u64 max_ 3))
  h1 ← h1.addAssignValue TEST_VALUE_LEVEL
  h1 ← h1.addAssignValue (1000 * TEST_VALUE_LEVEL)
  let mut big := (← unwrap (Hist.newWithMax fp .u64 (2 * max_) 3))
  big ← big.addAssignValue TEST_VALUE_LEVEL
  big ← big.addAssignValue (1000 * TEST_VALUE_LEVEL)
  big ← big.addAssignValue (2 * max_)
  let big2 := big
  big ← big.addAssign big2
  big ← big.addAssign big2
  check ((← big.countAt TEST_VALUE_LEVEL) == 3)
  check ((← big.countAt (1000 * TEST_VALUE_LEVEL)) == 3)
  check ((← big.countAt (2 * max_)) == 3)
  check (big.len == 9)
  big ← big.subAssign h1
  check ((← big.countAt TEST_VALUE_LEVEL) == 2)
  check ((← big.countAt (1000 * TEST_VALUE_LEVEL)) == 2)
  check ((← big.countAt (2 * max_)) == 3)
  check (big.len == 7)
  assertMinMaxCount h1
  assertMinMaxCount big
#guard passes subtractValuesInsideMinuendRangeWorks

/-- src/tests/subtract.rs:157 -/
def subtractValuesStrictlyInsideMinuendRangeYieldsSameMinMaxNoRestat : M Unit := do
  let mut h1 := (← unwrap (Hist.newWithMax fp .u64 U64MAX 3))
  let mut h2 := (← unwrap (Hist.newWithMax fp .u64 U64MAX 3))
  h1 ← h1.addAssignValue 1
  h1 ← h1.addAssignValue 10
  h1 ← h1.addAssignValue 100
  h1 ← h1.addAssignValue 1000
  h2 ← h2.addAssignValue 10
  h2 ← h2.addAssignValue 100
  h1 ← okay (h1.subtract h2)
  check (1 == (← h1.min))
  check (1000 == (← h1.max))
  check (2 == h1.len)
  assertMinMaxCount h1
  assertMinMaxCount h2
#guard passes subtractValuesStrictlyInsideMinuendRangeYieldsSameMinMaxNoRestat

/-- src/tests/subtract.rs:181 -/
def subtractValuesAtExtentOfMinuendZeroCountRangeRecalculatesMinMax : M Unit := do
  let mut h1 := (← unwrap (Hist.newWithMax fp .u64 U64MAX 3))
  let mut h2 := (← unwrap (Hist.newWithMax fp .u64 U64MAX 3))
  h1 ← h1.addAssignValue 1
  h1 ← h1.addAssignValue 10
  h1 ← h1.addAssignValue 100
  h1 ← h1.addAssignValue 1000
  h2 ← h2.addAssignValue 1
  h2 ← h2.addAssignValue 1000
  h1 ← okay (h1.subtract h2)
  check (10 == (← h1.min))
  check (100 == (← h1.max))
  assertMinMaxCount h1
  assertMinMaxCount h2
#guard passes subtractValuesAtExtentOfMinuendZeroCountRangeRecalculatesMinMax

/-- src/tests/subtract.rs:204 -/
def subtractValuesAtExtentOfMinuendNonzeroCountRangeRecalculatesSameMinMax : M Unit := do
  let mut h1 := (← unwrap (Hist.newWithMax fp .u64 U64MAX 3))
  let mut h2 := (← unwrap (Hist.newWithMax fp .u64 U64MAX 3))
  h1 ← okay (h1.recordN 1 2)
  h1 ← okay (h1.recordN 10 2)
  h1 ← okay (h1.recordN 100 2)
  h1 ← okay (h1.recordN 1000 2)
  h2 ← h2.addAssignValue 1
  h2 ← h2.addAssignValue 1000
  h1 ← okay (h1.subtract h2)
  check (1 == (← h1.min))
  check (1000 == (← h1.max))
  assertMinMaxCount h1
  assertMinMaxCount h2
#guard passes subtractValuesAtExtentOfMinuendNonzeroCountRangeRecalculatesSameMinMax

/-- src/tests/subtract.rs:227 -/
def subtractValuesWithinBucketPrecisionOfOfMinuendMinRecalculatesMinMax : M Unit := do
  let mut h1 := (← unwrap (Hist.newWithMax fp .u64 U64MAX 3))
  let mut h2 := (← unwrap (Hist.newWithMax fp .u64 30000 4))
  h1 ← okay (h1.record 3000)
  h1 ← okay (h1.record 3100)
  h1 ← okay (h1.record 3200)
  h1 ← okay (h1.record 3300)
  h2 ← h2.addAssignValue 3001
  h1 ← okay (h1.subtract h2)
  check (3100 == (← h1.min))
  check (3301 == (← h1.max))
  assertMinMaxCount h1
  assertMinMaxCount h2
#guard passes subtractValuesWithinBucketPrecisionOfOfMinuendMinRecalculatesMinMax

/-- src/tests/subtract.rs:251 -/
def subtractValuesAtMinuendMinRecalculatesMinMax : M Unit := do
  let mut h1 := (← unwrap (Hist.newWithMax fp .u64 U64MAX 3))
  let mut h2 := (← unwrap (Hist.newWithMax fp .u64 30000 4))
  h1 ← okay (h1.record 3000)
  h1 ← okay (h1.record 3100)
  h1 ← okay (h1.record 3200)
  h1 ← okay (h1.record 3300)
  h2 ← h2.addAssignValue 3000
  h1 ← okay (h1.subtract h2)
  check (3100 == (← h1.min))
  check (3301 == (← h1.max))
  assertMinMaxCount h1
  assertMinMaxCount h2
#guard passes subtractValuesAtMinuendMinRecalculatesMinMax

/-- src/tests/subtract.rs:275 -/
def subtractValuesWithinBucketPrecisionOfOfMinuendMaxRecalculatesMinMax : M Unit := do
  let mut h1 := (← unwrap (Hist.newWithMax fp .u64 U64MAX 3))
  let mut h2 := (← unwrap (Hist.newWithMax fp .u64 30000 4))
  h1 ← okay (h1.record 3000)
  h1 ← okay (h1.record 3100)
  h1 ← okay (h1.record 3200)
  h1 ← okay (h1.record 3300)
  h2 ← h2.addAssignValue 3301
  h1 ← okay (h1.subtract h2)
  check (3000 == (← h1.min))
  check (3201 == (← h1.max))
  assertMinMaxCount h1
  assertMinMaxCount h2
#guard passes subtractValuesWithinBucketPrecisionOfOfMinuendMaxRecalculatesMinMax

/-- src/tests/subtract.rs:299 -/
def subtractValuesAtMinuendMaxRecalculatesMinMax : M Unit := do
  let mut h1 := (← unwrap (Hist.newWithMax fp .u64 U64MAX 3))
  let mut h2 := (← unwrap (Hist.newWithMax fp .u64 30000 4))
  h1 ← okay (h1.record 3000)
  h1 ← okay (h1.record 3100)
  h1 ← okay (h1.record 3200)
  h1 ← okay (h1.record 3300)
  h2 ← h2.addAssignValue 3300
  h1 ← okay (h1.subtract h2)
  check (3000 == (← h1.min))
  check (3201 == (← h1.max))
  assertMinMaxCount h1
  assertMinMaxCount h2
#guard passes subtractValuesAtMinuendMaxRecalculatesMinMax

/-- src/tests/subtract.rs:323 -/
def subtractValuesMinuendSaturatedTotalRecalculatesSaturated : M Unit := do
  let mut h1 := (← unwrap (Hist.newWithMax fp .u64 U64MAX 3))
  let mut h2 := (← unwrap (Hist.newWithMax fp .u64 U64MAX 3))
  h1 ← okay (h1.recordN 1 U64MAX)
  h1 ← okay (h1.recordN 10 U64MAX)
  h1 ← okay (h1.recordN 100 U64MAX)
  h1 ← okay (h1.recordN 1000 U64MAX)
  h2 ← okay (h2.record 10)
  h2 ← okay (h2.record 100)
  h1 ← okay (h1.subtract h2)
  check (1 == (← h1.min))
  check (1000 == (← h1.max))
  check (U64MAX == h1.len)
  assertMinMaxCount h1
  assertMinMaxCount h2
#guard passes subtractValuesMinuendSaturatedTotalRecalculatesSaturated

/-- src/tests/subtract.rs:349 -/
def subtractValuesMinuendSaturatedTotalRecalculatesNotSaturated : M Unit := do
  let mut h1 := (← unwrap (Hist.newWithMax fp .u64 U64MAX 3))
  let mut h2 := (← unwrap (Hist.newWithMax fp .u64 U64MAX 3))
  let chunk : Nat := ((U64MAX / 16) * 5)
  h1 ← okay (h1.recordN 1 chunk)
  h1 ← okay (h1.recordN 10 chunk)
  h1 ← okay (h1.recordN 100 chunk)
  h1 ← okay (h1.recordN 1000 chunk)
  h2 ← okay (h2.recordN 10 chunk)
  h1 ← okay (h1.subtract h2)
  check (1 == (← h1.min))
  check (1000 == (← h1.max))
  check (((U64MAX / 16) * 15) == h1.len)
  assertMinMaxCount h1
  assertMinMaxCount h2
#guard passes subtractValuesMinuendSaturatedTotalRecalculatesNotSaturated

end Hdr.Check.Subtract
