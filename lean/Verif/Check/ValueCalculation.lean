import Verif.Check.Prelude

/-!
# src/tests/value_calculation.rs

Transcribed as described in Verif/Check/Prelude.lean.
Not transcribed: `value_for_at_each_index`.
-/

namespace Hdr.Check.ValueCalculation

set_option linter.unusedVariables false

/-- src/tests/value_calculation.rs:5 -/
def equivalentRangeUnitMagnitude0 : M Unit := do
  let h := (← histo64 1 100000 3)
  check (1 == (← h.equivalentRange 0))
  check (1 == (← h.equivalentRange 1))
  check (1 == (← h.equivalentRange 1023))
  check (1 == (← h.equivalentRange 1024))
  check (1 == (← h.equivalentRange 1025))
  check (1 == (← h.equivalentRange 2047))
  check (2 == (← h.equivalentRange 2048))
  check (2 == (← h.equivalentRange 2049))
  check (2 == (← h.equivalentRange 4095))
  check (7 == h.bucketCount)
  check ((1 <<< 6) == (← h.equivalentRange 100000))
  check ((1 <<< 6) == (← h.equivalentRange ((1 <<< 17) - 1)))
  check ((1 <<< 7) == (← h.equivalentRange (1 <<< 17)))
#guard passes equivalentRangeUnitMagnitude0

/-- src/tests/value_calculation.rs:32 -/
def equivalentRangeUnitMagnitude2 : M Unit := do
  let h := (← histo64 4 100000 3)
  check (4 == (← h.equivalentRange 0))
  check (4 == (← h.equivalentRange 1))
  check (4 == (← h.equivalentRange 3))
  check (4 == (← h.equivalentRange 4))
  check (4 == (← h.equivalentRange 4095))
  check (4 == (← h.equivalentRange 4096))
  check (4 == (← h.equivalentRange 8188))
  check (8 == (← h.equivalentRange 8192))
  check (8 == (← h.equivalentRange (16384 - 7)))
  check (5 == h.bucketCount)
  check ((1 <<< 6) == (← h.equivalentRange 100000))
  check ((1 <<< 6) == (← h.equivalentRange ((1 <<< 17) - 1)))
  check ((1 <<< 7) == (← h.equivalentRange (1 <<< 17)))
#guard passes equivalentRangeUnitMagnitude2

/-- src/tests/value_calculation.rs:60 -/
def equivalentRangeUnitMagnitude0MaxBuckets : M Unit := do
  let h := (← histo64 1 U64MAX 3)
  check (1 == (← h.equivalentRange 0))
  check (1 == (← h.equivalentRange 1))
  check (1 == (← h.equivalentRange ((1 <<< 11) - 1)))
  check ((1 <<< 1) == (← h.equivalentRange (1 <<< 11)))
  check ((1 <<< 2) == (← h.equivalentRange (1 <<< 12)))
  check ((1 <<< 3) == (← h.equivalentRange (1 <<< 13)))
  check ((1 <<< 4) == (← h.equivalentRange (1 <<< 14)))
  check ((1 <<< 5) == (← h.equivalentRange (1 <<< 15)))
  check ((1 <<< 53) == (← h.equivalentRange (1 <<< 63)))
  check ((1 <<< 53) == (← h.equivalentRange U64MAX))
#guard passes equivalentRangeUnitMagnitude0MaxBuckets

/-- src/tests/value_calculation.rs:80 -/
def equivalentRangeUnitMagnitude0MinPrecisionMaxBuckets : M Unit := do
  let h := (← histo64 1 U64MAX 0)
  check (1 == (← h.equivalentRange 0))
  check (1 == (← h.equivalentRange 1))
  check ((1 <<< 1) == (← h.equivalentRange (1 <<< 1)))
  check ((1 <<< 2) == (← h.equivalentRange (1 <<< 2)))
  check ((1 <<< 63) == (← h.equivalentRange (1 <<< 63)))
  check ((1 <<< 63) == (← h.equivalentRange U64MAX))
#guard passes equivalentRangeUnitMagnitude0MinPrecisionMaxBuckets

/-- src/tests/value_calculation.rs:96 -/
def equivalentRangeUnitMagnitude0MaxPrecisionMaxBuckets : M Unit := do
  let h := (← histo64 1 U64MAX 5)
  check (1 == (← h.equivalentRange 0))
  check (1 == (← h.equivalentRange 1))
  check (1 == (← h.equivalentRange ((1 <<< 18) - 1)))
  check ((1 <<< 1) == (← h.equivalentRange (1 <<< 18)))
  check ((1 <<< 2) == (← h.equivalentRange (1 <<< 19)))
  check ((1 <<< 3) == (← h.equivalentRange (1 <<< 20)))
  check ((1 <<< 4) == (← h.equivalentRange (1 <<< 21)))
  check ((1 <<< 5) == (← h.equivalentRange (1 <<< 22)))
  check ((1 <<< 46) == (← h.equivalentRange (1 <<< 63)))
  check ((1 <<< 46) == (← h.equivalentRange U64MAX))
#guard passes equivalentRangeUnitMagnitude0MaxPrecisionMaxBuckets

/-- src/tests/value_calculation.rs:116 -/
def equivalentRangeUnitMagnitude2MaxBuckets : M Unit := do
  let h := (← histo64 4 U64MAX 3)
  check ((1 <<< 2) == (← h.equivalentRange 0))
  check ((1 <<< 2) == (← h.equivalentRange 1))
  check ((1 <<< 2) == (← h.equivalentRange 4))
  check ((1 <<< 2) == (← h.equivalentRange (1 <<< 12)))
  check ((1 <<< 2) == (← h.equivalentRange ((1 <<< 13) - 1)))
  check ((1 <<< 3) == (← h.equivalentRange (1 <<< 13)))
  check ((1 <<< 4) == (← h.equivalentRange (1 <<< 14)))
  check ((1 <<< 5) == (← h.equivalentRange (1 <<< 15)))
  check ((1 <<< 53) == (← h.equivalentRange (1 <<< 63)))
  check ((1 <<< 53) == (← h.equivalentRange U64MAX))
#guard passes equivalentRangeUnitMagnitude2MaxBuckets

/-- src/tests/value_calculation.rs:137 -/
def equivalentRangeUnitMagnitude50MaxBuckets : M Unit := do
  let h := (← histo64 (1 <<< 50) U64MAX 3)
  check (2048 == h.subBucketCount)
  check ((1 <<< 50) == (← h.equivalentRange 0))
  check ((1 <<< 50) == (← h.equivalentRange 1))
  check ((1 <<< 50) == (← h.equivalentRange 4))
  check ((1 <<< 50) == (← h.equivalentRange ((1 <<< 61) - 1)))
  check ((1 <<< 51) == (← h.equivalentRange (1 <<< 61)))
  check ((1 <<< 52) == (← h.equivalentRange (1 <<< 62)))
  check ((1 <<< 53) == (← h.equivalentRange (1 <<< 63)))
  check ((1 <<< 53) == (← h.equivalentRange U64MAX))
#guard passes equivalentRangeUnitMagnitude50MaxBuckets

/-- src/tests/value_calculation.rs:157 -/
def highestEquivalentUnitMagnitude0 : M Unit := do
  let h := (← histo64 1 100000 3)
  check (0 == (← h.highestEquivalent 0))
  check (1 == (← h.highestEquivalent 1))
  check (1023 == (← h.highestEquivalent 1023))
  check (1024 == (← h.highestEquivalent 1024))
  check (2047 == (← h.highestEquivalent 2047))
  check (2049 == (← h.highestEquivalent 2048))
  check (2049 == (← h.highestEquivalent 2049))
  check (4095 == (← h.highestEquivalent 4095))
#guard passes highestEquivalentUnitMagnitude0

/-- src/tests/value_calculation.rs:175 -/
def highestEquivalentUnitMagnitude2 : M Unit := do
  let h := (← histo64 4 100000 3)
  check (3 == (← h.highestEquivalent 0))
  check (3 == (← h.highestEquivalent 1))
  check (3 == (← h.highestEquivalent 3))
  check (7 == (← h.highestEquivalent 4))
  check (4095 == (← h.highestEquivalent 4095))
  check (4099 == (← h.highestEquivalent 4096))
  check (8191 == (← h.highestEquivalent 8188))
  check ((8192 + 7) == (← h.highestEquivalent 8192))
  check ((8192 + 7) == (← h.highestEquivalent (8192 + 7)))
  check ((16384 - 1) == (← h.highestEquivalent (16384 - 7)))
#guard passes highestEquivalentUnitMagnitude2

/-- src/tests/value_calculation.rs:196 -/
def highestEquivalentU64MaxValueSaturates : M Unit := do
  let h := (← histo64 1 U64MAX 3)
  check ((U64MAX - 1) == (← h.highestEquivalent (U64MAX - 1)))
  check (U64MAX == (← h.highestEquivalent U64MAX))
#guard passes highestEquivalentU64MaxValueSaturates

/-- src/tests/value_calculation.rs:208 -/
def nextNonEquivalentUnitMagnitude0 : M Unit := do
  let h := (← histo64 1 100000 3)
  check (1 == (← h.nextNonEquivalent 0))
  check (2 == (← h.nextNonEquivalent 1))
  check (1024 == (← h.nextNonEquivalent 1023))
  check (1025 == (← h.nextNonEquivalent 1024))
  check (2048 == (← h.nextNonEquivalent 2047))
  check (2050 == (← h.nextNonEquivalent 2048))
  check (2050 == (← h.nextNonEquivalent 2049))
  check (4096 == (← h.nextNonEquivalent 4095))
#guard passes nextNonEquivalentUnitMagnitude0

/-- src/tests/value_calculation.rs:227 -/
def nextNonEquivalentUnitMagnitude2 : M Unit := do
  let h := (← histo64 4 100000 3)
  check (4 == (← h.nextNonEquivalent 0))
  check (4 == (← h.nextNonEquivalent 1))
  check (4 == (← h.nextNonEquivalent 3))
  check (8 == (← h.nextNonEquivalent 4))
  check (4096 == (← h.nextNonEquivalent 4095))
  check (4100 == (← h.nextNonEquivalent 4096))
  check (8192 == (← h.nextNonEquivalent 8188))
  check ((8192 + 8) == (← h.nextNonEquivalent 8192))
  check ((8192 + 8) == (← h.nextNonEquivalent (8192 + 7)))
  check (16384 == (← h.nextNonEquivalent (16384 - 7)))
#guard passes nextNonEquivalentUnitMagnitude2

/-- src/tests/value_calculation.rs:248 -/
def nextNonEquivalentU64MaxValueSaturates : M Unit := do
  let h := (← histo64 1 U64MAX 3)
  check ((1 <<< 53) == (← h.equivalentRange U64MAX))
  check (U64MAX == (← h.nextNonEquivalent (U64MAX - 1)))
  check (U64MAX == (← h.nextNonEquivalent U64MAX))
#guard passes nextNonEquivalentU64MaxValueSaturates

/-- src/tests/value_calculation.rs:263 -/
def lowestEquivalentUnitMagnitude0 : M Unit := do
  let h := (← histo64 1 100000 3)
  check (0 == (← h.lowestEquivalent 0))
  check (1 == (← h.lowestEquivalent 1))
  check (1023 == (← h.lowestEquivalent 1023))
  check (1024 == (← h.lowestEquivalent 1024))
  check (2047 == (← h.lowestEquivalent 2047))
  check (2048 == (← h.lowestEquivalent 2048))
  check (2048 == (← h.lowestEquivalent 2049))
  check (4094 == (← h.lowestEquivalent 4095))
#guard passes lowestEquivalentUnitMagnitude0

/-- src/tests/value_calculation.rs:282 -/
def lowestEquivalentUnitMagnitude2 : M Unit := do
  let h := (← histo64 4 100000 3)
  check (0 == (← h.lowestEquivalent 0))
  check (0 == (← h.lowestEquivalent 1))
  check (0 == (← h.lowestEquivalent 3))
  check (4 == (← h.lowestEquivalent 4))
  check (((1024 * 4) - 4) == (← h.lowestEquivalent ((1024 * 4) - 1)))
  check ((1024 * 4) == (← h.lowestEquivalent (1024 * 4)))
  check (((2048 * 4) - 4) == (← h.lowestEquivalent ((2048 * 4) - 4)))
  check (((2048 * 4) - 4) == (← h.lowestEquivalent ((2048 * 4) - 1)))
  check (8192 == (← h.lowestEquivalent 8192))
  check (8192 == (← h.lowestEquivalent (8192 + 7)))
  check ((16384 - 8) == (← h.lowestEquivalent (16384 - 8)))
  check ((16384 - 8) == (← h.lowestEquivalent (16384 - 1)))
#guard passes lowestEquivalentUnitMagnitude2

/-- src/tests/value_calculation.rs:306 -/
def valueFromLocUnitMagnitude0 : M Unit := do
  let h := (← histo64 1 100000 3)
  check (0 == (← h.valueFromLoc 0 0))
  check ((2048 - 1) == (← h.valueFromLoc 0 2047))
  check (2048 == (← h.valueFromLoc 1 1024))
  check ((4096 - 2) == (← h.valueFromLoc 1 2047))
  check (4096 == (← h.valueFromLoc 2 1024))
#guard passes valueFromLocUnitMagnitude0

/-- src/tests/value_calculation.rs:320 -/
def valueFromLocUnitMagnitude2 : M Unit := do
  let h := (← histo64 4 100000 3)
  check (0 == (← h.valueFromLoc 0 0))
  check (((2048 - 1) * 4) == (← h.valueFromLoc 0 2047))
  check ((2048 * 4) == (← h.valueFromLoc 1 1024))
  check (((4096 - 2) * 4) == (← h.valueFromLoc 1 2047))
  check ((4096 * 4) == (← h.valueFromLoc 2 1024))
#guard passes valueFromLocUnitMagnitude2

/-- src/tests/value_calculation.rs:334 -/
def valueForUnitMagnitude0 : M Unit := do
  let h := (← histo64 1 100000 3)
  check (0 == (← h.valueFor 0))
  check (1023 == (← h.valueFor 1023))
  check (1024 == (← h.valueFor 1024))
  check (2047 == (← h.valueFor 2047))
  check (2048 == (← h.valueFor 2048))
  check ((4096 - 2) == (← h.valueFor 3071))
#guard passes valueForUnitMagnitude0

/-- src/tests/value_calculation.rs:348 -/
def valueForUnitMagnitude2 : M Unit := do
  let h := (← histo64 4 100000 3)
  check (0 == (← h.valueFor 0))
  check ((1023 * 4) == (← h.valueFor 1023))
  check ((1024 * 4) == (← h.valueFor 1024))
  check ((2047 * 4) == (← h.valueFor 2047))
  check ((2048 * 4) == (← h.valueFor 2048))
  check (((4096 - 2) * 4) == (← h.valueFor 3071))
#guard passes valueForUnitMagnitude2

/-- src/tests/value_calculation.rs:416 -/
def valueForBeyondHistogramMaxStillWorks : M Unit := do
  let max_ : Nat := 1000000000
  let h := (← histo64 1 max_ 3)
  let bucket : Nat := (← h.bucketFor max_)
  let biggerBucket : Nat := (← h.bucketFor (2 * max_))
  check ((bucket + 1) == biggerBucket)
#guard passes valueForBeyondHistogramMaxStillWorks

/-- src/tests/value_calculation.rs:429 -/
def valueForImpossibleIndex : M Unit := do
  let max_ : Nat := U64MAX
  let h := (← histo64 1 max_ 3)
  let maxIndex : Nat := (← expectM (← h.indexFor max_))
  check ((← h.lowestEquivalent max_) == (← h.valueFor maxIndex))
  check (0 == (← h.valueFor (maxIndex + 1)))
#guard passes valueForImpossibleIndex

end Hdr.Check.ValueCalculation
