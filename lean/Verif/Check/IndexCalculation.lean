import Verif.Check.Prelude

/-!
# src/tests/index_calculation.rs

Transcribed as described in Verif/Check/Prelude.lean.
Not transcribed: nothing.
-/

namespace Hdr.Check.IndexCalculation

set_option linter.unusedVariables false

/-- src/tests/index_calculation.rs:5 -/
def unitMagnitude0IndexCalculations : M Unit := do
  let h := (← histo64 1 (1 <<< 32) 3)
  check (2048 == h.subBucketCount)
  check (0 == h.unitMag)
  check (23 == h.bucketCount)
  check (0 == (← h.bucketFor 3))
  check (3 == (← h.subBucketFor 3 0))
  check (0 == (← h.bucketFor (1024 + 3)))
  check ((1024 + 3) == (← h.subBucketFor (1024 + 3) 0))
  check (1 == (← h.bucketFor (2048 + (3 * 2))))
  check ((1024 + 3) == (← h.subBucketFor (2048 + (3 * 2)) 1))
  check (2 == (← h.bucketFor ((2048 <<< 1) + (3 * 4))))
  check ((1024 + 3) == (← h.subBucketFor ((2048 <<< 1) + (3 * 4)) 2))
  check (23 == (← h.bucketFor ((2048 <<< 22) + (3 * (1 <<< 23)))))
  check ((1024 + 3) == (← h.subBucketFor ((2048 <<< 22) + (3 * (1 <<< 23))) 23))
#guard passes unitMagnitude0IndexCalculations

/-- src/tests/index_calculation.rs:39 -/
def unitMagnitude4IndexCalculations : M Unit := do
  let h := (← histo64 (1 <<< 12) (1 <<< 32) 3)
  check (2048 == h.subBucketCount)
  check (12 == h.unitMag)
  check (11 == h.bucketCount)
  let unit : Nat := (1 <<< 12)
  check (0 == (← h.bucketFor 3))
  check (0 == (← h.subBucketFor 3 0))
  check (0 == (← h.bucketFor (3 * unit)))
  check (3 == (← h.subBucketFor (3 * unit) 0))
  check (0 == (← h.bucketFor (unit * (1024 + 3))))
  check ((1024 + 3) == (← h.subBucketFor (unit * (1024 + 3)) 0))
  check (1 == (← h.bucketFor ((unit <<< 11) + (3 * (unit <<< 1)))))
  check ((1024 + 3) == (← h.subBucketFor ((unit <<< 11) + (3 * (unit <<< 1))) 1))
  check (2 == (← h.bucketFor ((unit <<< 12) + (3 * (unit <<< 2)))))
  check ((1024 + 3) == (← h.subBucketFor ((unit <<< 12) + (3 * (unit <<< 2))) 2))
  check (11 == (← h.bucketFor ((unit <<< 21) + (3 * (unit <<< 11)))))
  check ((1024 + 3) == (← h.subBucketFor ((unit <<< 21) + (3 * (unit <<< 11))) 11))
#guard passes unitMagnitude4IndexCalculations

/-- src/tests/index_calculation.rs:88 -/
def unitMagnitude52SubBucketMagnitude11IndexCalculations : M Unit := do
  let h := (← histo64 (1 <<< 52) U64MAX 3)
  check (2048 == h.subBucketCount)
  check (52 == h.unitMag)
  check (2 == h.bucketCount)
  check (1 == h.leadingZeroCountBase)
  let unit : Nat := (1 <<< 52)
  check (0 == (← h.bucketFor 3))
  check (0 == (← h.subBucketFor 3 0))
  check (0 == (← h.bucketFor (3 * unit)))
  check (3 == (← h.subBucketFor (3 * unit) 0))
  check (0 == (← h.bucketFor (unit * (1024 + 3))))
  check ((1024 + 3) == (← h.subBucketFor (unit * (1024 + 3)) 0))
  check (0 == (← h.bucketFor ((unit * 1024) + (1023 * unit))))
  check ((1024 + 1023) == (← h.subBucketFor ((unit * 1024) + (1023 * unit)) 0))
  check (1 == (← h.bucketFor ((unit <<< 11) + (3 * (unit <<< 1)))))
  check ((1024 + 3) == (← h.subBucketFor ((unit <<< 11) + (3 * (unit <<< 1))) 1))
  check (1 == (← h.bucketFor U64MAX))
  check ((1024 + 1023) == (← h.subBucketFor U64MAX 1))
#guard passes unitMagnitude52SubBucketMagnitude11IndexCalculations

/-- src/tests/index_calculation.rs:131 -/
def unitMagnitude53SubBucketMagnitude11Throws : M Unit := do
  check (CreationError.CannotRepresentSigFigBeyondLow == (← unwrapErr (Hist.newWithBounds fp .u64 (1 <<< 53) (1 <<< 63) 3)))
#guard passes unitMagnitude53SubBucketMagnitude11Throws

/-- src/tests/index_calculation.rs:139 -/
def unitMagnitude55SubBucketMagnitude8Ok : M Unit := do
  let h := (← histo64 (1 <<< 55) (1 <<< 63) 2)
  check (256 == h.subBucketCount)
  check (55 == h.unitMag)
  check (2 == h.bucketCount)
  check (0 == (← h.bucketFor 3))
  check (0 == (← h.subBucketFor 3 0))
  check (1 == (← h.bucketFor U64MAX))
  check ((128 + 127) == (← h.subBucketFor U64MAX 1))
#guard passes unitMagnitude55SubBucketMagnitude8Ok

/-- src/tests/index_calculation.rs:156 -/
def unitMagnitude62SubBucketMagnitude1Ok : M Unit := do
  let h := (← histo64 (1 <<< 62) (1 <<< 63) 0)
  check (2 == h.subBucketCount)
  check (62 == h.unitMag)
  check (2 == h.bucketCount)
  check (0 == (← h.bucketFor 3))
  check (0 == (← h.subBucketFor 3 0))
  check (1 == (← h.bucketFor U64MAX))
  check (1 == (← h.subBucketFor U64MAX 1))
#guard passes unitMagnitude62SubBucketMagnitude1Ok

/-- src/tests/index_calculation.rs:173 -/
def bucketForSmallestValueInFirstBucket : M Unit := do
  let h := (← histo64 1 100000 3)
  check (0 == (← h.bucketFor 0))
#guard passes bucketForSmallestValueInFirstBucket

/-- src/tests/index_calculation.rs:179 -/
def bucketForBiggestValueInFirstBucket : M Unit := do
  let h := (← histo64 1 100000 3)
  check (0 == (← h.bucketFor 2047))
#guard passes bucketForBiggestValueInFirstBucket

/-- src/tests/index_calculation.rs:186 -/
def bucketForSmallestValueInSecondBucket : M Unit := do
  let h := (← histo64 1 100000 3)
  check (1 == (← h.bucketFor 2048))
#guard passes bucketForSmallestValueInSecondBucket

/-- src/tests/index_calculation.rs:192 -/
def bucketForBiggestValueInSecondBucket : M Unit := do
  let h := (← histo64 1 100000 3)
  check (1 == (← h.bucketFor 4095))
#guard passes bucketForBiggestValueInSecondBucket

/-- src/tests/index_calculation.rs:199 -/
def bucketForSmallestValueInThirdBucket : M Unit := do
  let h := (← histo64 1 100000 3)
  check (2 == (← h.bucketFor 4096))
#guard passes bucketForSmallestValueInThirdBucket

/-- src/tests/index_calculation.rs:205 -/
def bucketForSmallestValueInLastBucket : M Unit := do
  let h := (← histo64 1 100000 3)
  check (6 == (← h.bucketFor 65536))
#guard passes bucketForSmallestValueInLastBucket

/-- src/tests/index_calculation.rs:213 -/
def bucketForValueBelowSmallestClampsToZero : M Unit := do
  let h := (← histo64 1024 100000 3)
  check (0 == (← h.bucketFor 0))
  check (0 == (← h.bucketFor 1))
  check (0 == (← h.bucketFor 1023))
  check (0 == (← h.bucketFor 1024))
#guard passes bucketForValueBelowSmallestClampsToZero

/-- src/tests/index_calculation.rs:224 -/
def bucketForValueAboveBiggestIsntClampedAtMaxBucket : M Unit := do
  let h := (← histo64 1 100000 3)
  check (6 == (← h.bucketFor 100000))
  check (26 == (← h.bucketFor 100000000000))
#guard passes bucketForValueAboveBiggestIsntClampedAtMaxBucket

/-- src/tests/index_calculation.rs:233 -/
def subBucketForZeroValueInFirstBucket : M Unit := do
  let h := (← histo64 1 100000 3)
  let value : Nat := 0
  check (0 == (← h.subBucketFor value (← h.bucketFor value)))
#guard passes subBucketForZeroValueInFirstBucket

/-- src/tests/index_calculation.rs:241 -/
def subBucketForSmallestDistinguishableValueInFirstBucket : M Unit := do
  let h := (← histo64 1 100000 3)
  let value : Nat := 1
  check (1 == (← h.subBucketFor value (← h.bucketFor value)))
#guard passes subBucketForSmallestDistinguishableValueInFirstBucket

/-- src/tests/index_calculation.rs:248 -/
def subBucketForZeroValueInFirstBucketUnitMagnitude2 : M Unit := do
  let h := (← histo64 4 100000 3)
  let value : Nat := 0
  check (2 == h.unitMag)
  check (0 == (← h.subBucketFor value (← h.bucketFor value)))
#guard passes subBucketForZeroValueInFirstBucketUnitMagnitude2

/-- src/tests/index_calculation.rs:256 -/
def subBucketForSmallerThanDistinguishableValueInFirstBucketUnitMagnitude2 : M Unit := do
  let h := (← histo64 4 100000 3)
  let value : Nat := 3
  check (2 == h.unitMag)
  check (0 == (← h.subBucketFor value (← h.bucketFor value)))
#guard passes subBucketForSmallerThanDistinguishableValueInFirstBucketUnitMagnitude2

/-- src/tests/index_calculation.rs:264 -/
def subBucketForSmallestDistinguishableValueInFirstBucketUnitMagnitude2 : M Unit := do
  let h := (← histo64 4 100000 3)
  let value : Nat := 4
  check (2 == h.unitMag)
  check (1 == (← h.subBucketFor value (← h.bucketFor value)))
#guard passes subBucketForSmallestDistinguishableValueInFirstBucketUnitMagnitude2

/-- src/tests/index_calculation.rs:272 -/
def subBucketForLargestValueInFirstBucketUnitMagnitude2 : M Unit := do
  let h := (← histo64 4 100000 3)
  let value : Nat := ((2048 * 4) - 1)
  check (2 == h.unitMag)
  check (2047 == (← h.subBucketFor value (← h.bucketFor value)))
#guard passes subBucketForLargestValueInFirstBucketUnitMagnitude2

/-- src/tests/index_calculation.rs:280 -/
def subBucketForSmallestValueInSecondBucketUnitMagnitude2 : M Unit := do
  let h := (← histo64 4 100000 3)
  let value : Nat := (2048 * 4)
  check (2 == h.unitMag)
  check (1024 == (← h.subBucketFor value (← h.bucketFor value)))
#guard passes subBucketForSmallestValueInSecondBucketUnitMagnitude2

/-- src/tests/index_calculation.rs:288 -/
def subBucketForLargestValueInFirstBucket : M Unit := do
  let h := (← histo64 1 100000 3)
  let value : Nat := 2047
  check (2047 == (← h.subBucketFor value (← h.bucketFor value)))
#guard passes subBucketForLargestValueInFirstBucket

/-- src/tests/index_calculation.rs:295 -/
def subBucketForSmallestValueInSecondBucket : M Unit := do
  let h := (← histo64 1 100000 3)
  let value : Nat := 2048
  check (1024 == (← h.subBucketFor value (← h.bucketFor value)))
#guard passes subBucketForSmallestValueInSecondBucket

/-- src/tests/index_calculation.rs:304 -/
def subBucketForBiggestValueInSecondBucket : M Unit := do
  let h := (← histo64 1 100000 3)
  let value : Nat := 4095
  check (2047 == (← h.subBucketFor value (← h.bucketFor value)))
#guard passes subBucketForBiggestValueInSecondBucket

/-- src/tests/index_calculation.rs:313 -/
def subBucketForSmallestValueInThirdBucket : M Unit := do
  let h := (← histo64 1 100000 3)
  let value : Nat := 4096
  check (1024 == (← h.subBucketFor value (← h.bucketFor value)))
#guard passes subBucketForSmallestValueInThirdBucket

/-- src/tests/index_calculation.rs:321 -/
def subBucketForValueBelowSmallestClampsToZero : M Unit := do
  let h := (← histo64 1024 100000 3)
  check (0 == (← h.subBucketFor 0 0))
  check (0 == (← h.subBucketFor 1 0))
  check (0 == (← h.subBucketFor 1023 0))
  check (1 == (← h.subBucketFor 1024 0))
#guard passes subBucketForValueBelowSmallestClampsToZero

/-- src/tests/index_calculation.rs:331 -/
def subBucketForValueAboveBiggestStillWorks : M Unit := do
  let h := (← histo64 1 (1024 * 1024) 3)
  check (1562 == (← h.subBucketFor 100000 (← h.bucketFor 100000)))
  check ((466 + 1024) == (← h.subBucketFor 100000000000 (← h.bucketFor 100000000000)))
#guard passes subBucketForValueAboveBiggestStillWorks

/-- src/tests/index_calculation.rs:349 -/
def indexForFirstBucketFirstEntry : M Unit := do
  let h := (← histo64 1 100000 3)
  check (0 == (← expectM (← h.indexFor 0)))
#guard passes indexForFirstBucketFirstEntry

/-- src/tests/index_calculation.rs:355 -/
def indexForFirstBucketFirstDistinguishableEntry : M Unit := do
  let h := (← histo64 1 100000 3)
  check (1 == (← expectM (← h.indexFor 1)))
#guard passes indexForFirstBucketFirstDistinguishableEntry

/-- src/tests/index_calculation.rs:361 -/
def indexForFirstBucketLastEntry : M Unit := do
  let h := (← histo64 1 100000 3)
  check (2047 == (← expectM (← h.indexFor 2047)))
#guard passes indexForFirstBucketLastEntry

/-- src/tests/index_calculation.rs:367 -/
def indexForSecondBucketLastEntry : M Unit := do
  let h := (← histo64 1 100000 3)
  check ((2048 + 1023) == (← expectM (← h.indexFor (2048 + 2047))))
#guard passes indexForSecondBucketLastEntry

/-- src/tests/index_calculation.rs:373 -/
def indexForSecondBucketLastEntryIndistinguishable : M Unit := do
  let h := (← histo64 1 100000 3)
  check ((2048 + 1023) == (← expectM (← h.indexFor (2048 + 2046))))
#guard passes indexForSecondBucketLastEntryIndistinguishable

/-- src/tests/index_calculation.rs:379 -/
def indexForSecondBucketFirstEntry : M Unit := do
  let h := (← histo64 1 100000 3)
  check (2048 == (← expectM (← h.indexFor 2048)))
#guard passes indexForSecondBucketFirstEntry

/-- src/tests/index_calculation.rs:385 -/
def indexForBelowSmallest : M Unit := do
  let h := (← histo64 1024 100000 3)
  check (0 == (← expectM (← h.indexFor 512)))
#guard passes indexForBelowSmallest

/-- src/tests/index_calculation.rs:392 -/
def indexForWayPastLargestValueExceedsLength : M Unit := do
  let h := (← histo64 1 100000 3)
  check ((8 * 1024) == h.counts.length)
  check ((1024 * (30 + 1)) == (← expectM (← h.indexFor (1 <<< 40))))
#guard passes indexForWayPastLargestValueExceedsLength

end Hdr.Check.IndexCalculation
