import Verif.Check.Prelude

/-!
# src/tests/init.rs

Transcribed as described in Verif/Check/Prelude.lean.
Not transcribed: nothing.
-/

namespace Hdr.Check.Init

set_option linter.unusedVariables false

/-- src/tests/init.rs:4 -/
def initFieldsSmallestPossibleArray : M Unit := do
  let h := (← histo64 1 2 0)
  check (2 == h.highestTrackable)
  check (1 == h.lowestDiscernible)
  check (0 == h.sigDigits)
  check (2 == h.subBucketCount)
  check (1 == h.subBucketHalfCount)
  check (2 == h.bucketCount)
  check (3 == h.counts.length)
  check (0 == h.subBucketHalfCountMag)
  check (1 == h.subBucketMask)
  check (0 == h.unitMag)
  check (0 == h.unitMagMask)
  check (63 == h.leadingZeroCountBase)
#guard passes initFieldsSmallestPossibleArray

/-- src/tests/init.rs:26 -/
def initFieldsMaxValueMaxPrecisionLargestPossibleArray : M Unit := do
  let h := (← histo64 1 U64MAX 5)
  check (U64MAX == h.highestTrackable)
  check (1 == h.lowestDiscernible)
  check (5 == h.sigDigits)
  check ((1 <<< 18) == h.subBucketCount)
  check ((1 <<< 17) == h.subBucketHalfCount)
  check (47 == h.bucketCount)
  check (((46 * h.subBucketHalfCount) + h.subBucketCount) == h.counts.length)
  check (17 == h.subBucketHalfCountMag)
  check (((1 <<< 18) - 1) == h.subBucketMask)
  check (0 == h.unitMag)
  check (0 == h.unitMagMask)
  check (((64 - 17) - 1) == h.leadingZeroCountBase)
#guard passes initFieldsMaxValueMaxPrecisionLargestPossibleArray

/-- src/tests/init.rs:52 -/
def initFieldsMaxValueMediumPrecision : M Unit := do
  let h := (← histo64 1 U64MAX 3)
  check (U64MAX == h.highestTrackable)
  check (1 == h.lowestDiscernible)
  check (3 == h.sigDigits)
  check ((1 <<< 11) == h.subBucketCount)
  check ((1 <<< 10) == h.subBucketHalfCount)
  check (54 == h.bucketCount)
  check (((53 * h.subBucketHalfCount) + h.subBucketCount) == h.counts.length)
  check (10 == h.subBucketHalfCountMag)
  check (((1 <<< 11) - 1) == h.subBucketMask)
  check (0 == h.unitMag)
  check (0 == h.unitMagMask)
  check (((64 - 10) - 1) == h.leadingZeroCountBase)
#guard passes initFieldsMaxValueMediumPrecision

/-- src/tests/init.rs:79 -/
def initFields1BucketMediumPrecision : M Unit := do
  let h := (← histo64 1 2000 3)
  check (2000 == h.highestTrackable)
  check (1 == h.lowestDiscernible)
  check (3 == h.sigDigits)
  check ((1 <<< 11) == h.subBucketCount)
  check ((1 <<< 10) == h.subBucketHalfCount)
  check (1 == h.bucketCount)
  check (h.subBucketCount == h.counts.length)
  check (10 == h.subBucketHalfCountMag)
  check (((1 <<< 11) - 1) == h.subBucketMask)
  check (0 == h.unitMag)
  check (0 == h.unitMagMask)
  check (((64 - 10) - 1) == h.leadingZeroCountBase)
#guard passes initFields1BucketMediumPrecision

/-- src/tests/init.rs:102 -/
def initFieldsMaxValue0PrecisionMostBuckets : M Unit := do
  let h := (← histo64 1 U64MAX 0)
  check (U64MAX == h.highestTrackable)
  check (1 == h.lowestDiscernible)
  check (0 == h.sigDigits)
  check (2 == h.subBucketCount)
  check (1 == h.subBucketHalfCount)
  check (64 == h.bucketCount)
  check ((63 + 2) == h.counts.length)
  check (0 == h.subBucketHalfCountMag)
  check (1 == h.subBucketMask)
  check (0 == h.unitMag)
  check (0 == h.unitMagMask)
  check ((64 - 1) == h.leadingZeroCountBase)
#guard passes initFieldsMaxValue0PrecisionMostBuckets

/-- src/tests/init.rs:126 -/
def initFieldsMaxValue0PrecisionIncreasedMinValue : M Unit := do
  let h := (← histo64 1000 U64MAX 0)
  check (U64MAX == h.highestTrackable)
  check (1000 == h.lowestDiscernible)
  check (0 == h.sigDigits)
  check (2 == h.subBucketCount)
  check (1 == h.subBucketHalfCount)
  check (55 == h.bucketCount)
  check ((54 + 2) == h.counts.length)
  check (0 == h.subBucketHalfCountMag)
  check ((1 <<< 9) == h.subBucketMask)
  check (9 == h.unitMag)
  check (((1 <<< 9) - 1) == h.unitMagMask)
  check (((64 - 9) - 1) == h.leadingZeroCountBase)
#guard passes initFieldsMaxValue0PrecisionIncreasedMinValue

/-- src/tests/init.rs:152 -/
def initFieldsMaxValueMaxPrecisionIncreasedMinValue : M Unit := do
  let h := (← histo64 1000 U64MAX 5)
  check (U64MAX == h.highestTrackable)
  check (1000 == h.lowestDiscernible)
  check (5 == h.sigDigits)
  check ((1 <<< 18) == h.subBucketCount)
  check ((1 <<< 17) == h.subBucketHalfCount)
  check (38 == h.bucketCount)
  check (((37 * h.subBucketHalfCount) + h.subBucketCount) == h.counts.length)
  check (17 == h.subBucketHalfCountMag)
  check ((((1 <<< 18) - 1) <<< 9) == h.subBucketMask)
  check (9 == h.unitMag)
  check (((1 <<< 9) - 1) == h.unitMagMask)
  check ((((64 - 9) - 17) - 1) == h.leadingZeroCountBase)
#guard passes initFieldsMaxValueMaxPrecisionIncreasedMinValue

/-- src/tests/init.rs:181 -/
def initFields10mMax1kMinMiddlePrecision : M Unit := do
  let h := (← histo64 1000 10000000 3)
  check (10000000 == h.highestTrackable)
  check (1000 == h.lowestDiscernible)
  check (3 == h.sigDigits)
  check ((1 <<< 11) == h.subBucketCount)
  check ((1 <<< 10) == h.subBucketHalfCount)
  check (5 == h.bucketCount)
  check (((4 * h.subBucketHalfCount) + h.subBucketCount) == h.counts.length)
  check (10 == h.subBucketHalfCountMag)
  check ((((1 <<< 11) - 1) <<< 9) == h.subBucketMask)
  check (9 == h.unitMag)
  check (((1 <<< 9) - 1) == h.unitMagMask)
  check ((((64 - 9) - 10) - 1) == h.leadingZeroCountBase)
#guard passes initFields10mMax1kMinMiddlePrecision

/-- src/tests/init.rs:211 -/
def initFieldsMaxValueMaxUnitMagnitude0Precision : M Unit := do
  let h := (← histo64 (U64MAX / 4) U64MAX 0)
  check (U64MAX == h.highestTrackable)
  check ((U64MAX / 4) == h.lowestDiscernible)
  check (0 == h.sigDigits)
  check (2 == h.subBucketCount)
  check (1 == h.subBucketHalfCount)
  check (2 == h.bucketCount)
  check ((h.subBucketHalfCount + h.subBucketCount) == h.counts.length)
  check (0 == h.subBucketHalfCountMag)
  check (((2 - 1) <<< 62) == h.subBucketMask)
  check (1 == (popcount h.subBucketMask))
  check (62 == h.unitMag)
  check (((1 <<< 62) - 1) == h.unitMagMask)
  check (((64 - 62) - 1) == h.leadingZeroCountBase)
#guard passes initFieldsMaxValueMaxUnitMagnitude0Precision

/-- src/tests/init.rs:242 -/
def initFieldsMaxValueMaxUnitMagnitudeMaxPrecision : M Unit := do
  let h := (← histo64 (1 <<< 45) U64MAX 5)
  check (U64MAX == h.highestTrackable)
  check ((1 <<< 45) == h.lowestDiscernible)
  check (5 == h.sigDigits)
  check ((1 <<< 18) == h.subBucketCount)
  check ((1 <<< 17) == h.subBucketHalfCount)
  check (2 == h.bucketCount)
  check ((h.subBucketHalfCount + h.subBucketCount) == h.counts.length)
  check (17 == h.subBucketHalfCountMag)
  check ((((1 <<< 18) - 1) <<< 45) == h.subBucketMask)
  check (18 == (popcount h.subBucketMask))
  check (45 == h.unitMag)
  check (((1 <<< 45) - 1) == h.unitMagMask)
  check (((64 - 62) - 1) == h.leadingZeroCountBase)
#guard passes initFieldsMaxValueMaxUnitMagnitudeMaxPrecision

end Hdr.Check.Init
