import Verif.Check.Prelude

/-!
# tests/histogram.rs

Transcribed as described in Verif/Check/Prelude.lean.
Where the original gives a histogram four significant digits and the whole range, the transcription gives it the values up to 30000: lookups in the lists of the model take linear time.
For the same reason the interval 31000 of the original is 31000000 here.
Not transcribed: `random_write_full_value_range_precision_5_no_panic`, `random_write_full_value_range_precision_0_no_panic`, `random_write_middle_of_value_range_precision_3_no_panic`.
-/

namespace Hdr.Check.Histogram

set_option linter.unusedVariables false

/-- tests/histogram.rs:44 -/
def constructionArgRanges : M Unit := do
  check (← isErr (Hist.newWithMax fp .u64 1 SIGFIG))
  check (← isErr (Hist.newWithMax fp .u64 TRACKABLE_MAX 6))
#guard passes constructionArgRanges

/-- tests/histogram.rs:50 -/
def emptyHistogram : M Unit := do
  let h := (← unwrap (Hist.new fp .u64 SIGFIG))
  check ((← h.min) == 0)
  check ((← h.max) == 0)
  check (near (← h.mean) (f64 0.0) (f64 0.0000000000001))
  check (near (← h.stdev) (f64 0.0) (f64 0.0000000000001))
  check (near (← h.quantileBelow 0) (f64 1.0) (f64 0.0000000000001))
  check (← verifyMax h)
#guard passes emptyHistogram

/-- tests/histogram.rs:61 -/
def constructionArgGets : M Unit := do
  let h := (← unwrap (Hist.newWithMax fp .u64 TRACKABLE_MAX SIGFIG))
  check (h.low == 1)
  check (h.high == TRACKABLE_MAX)
  check (h.sigfig == SIGFIG)
  let h := (← unwrap (Hist.newWithBounds fp .u64 1000 TRACKABLE_MAX SIGFIG))
  check (h.low == 1000)
#guard passes constructionArgGets

/-- tests/histogram.rs:72 -/
def record : M Unit := do
  let mut h := (← unwrap (Hist.newWithMax fp .u64 TRACKABLE_MAX SIGFIG))
  h ← h.addAssignValue TEST_VALUE_LEVEL
  check ((← h.countAt TEST_VALUE_LEVEL) == 1)
  check (h.len == 1)
  check (← verifyMax h)
#guard passes record

/-- tests/histogram.rs:81 -/
def recordPastTrackableMax : M Unit := do
  let mut h := (← unwrap (Hist.newWithMax fp .u64 TRACKABLE_MAX SIGFIG))
  h ← fails (h.record (3 * TRACKABLE_MAX))
#guard passes recordPastTrackableMax

/-- tests/histogram.rs:87 -/
def saturatingRecord : M Unit := do
  let mut h := (← unwrap (Hist.newWithBounds fp .u64 512 TRACKABLE_MAX SIGFIG))
  h ← h.saturatingRecord 1
  h ← h.saturatingRecord (1000 * 1000)
  h ← h.saturatingRecord (3 * TRACKABLE_MAX)
  check ((← h.countAt 511) == 1)
  check ((← h.countAt (1000 * 1000)) == 1)
  check ((← h.countAt h.high) == 1)
  check (h.len == 3)
  check (← verifyMax h)
#guard passes saturatingRecord

/-- tests/histogram.rs:103 -/
def recordInInterval : M Unit := do
  let mut h := (← unwrap (Hist.newWithMax fp .u64 TRACKABLE_MAX SIGFIG))
  h ← okay (h.recordCorrect TEST_VALUE_LEVEL (TEST_VALUE_LEVEL / 4))
  let mut r := (← unwrap (Hist.newWithMax fp .u64 TRACKABLE_MAX SIGFIG))
  r ← r.addAssignValue TEST_VALUE_LEVEL
  check ((← h.countAt (TEST_VALUE_LEVEL / 4)) == 1)
  check ((← h.countAt ((TEST_VALUE_LEVEL * 2) / 4)) == 1)
  check ((← h.countAt ((TEST_VALUE_LEVEL * 3) / 4)) == 1)
  check ((← h.countAt ((TEST_VALUE_LEVEL * 4) / 4)) == 1)
  check (h.len == 4)
  check ((← r.countAt (TEST_VALUE_LEVEL / 4)) == 0)
  check ((← r.countAt ((TEST_VALUE_LEVEL * 2) / 4)) == 0)
  check ((← r.countAt ((TEST_VALUE_LEVEL * 3) / 4)) == 0)
  check ((← r.countAt ((TEST_VALUE_LEVEL * 4) / 4)) == 1)
  check (r.len == 1)
  check (← verifyMax h)
#guard passes recordInInterval

/-- tests/histogram.rs:127 -/
def reset : M Unit := do
  let mut h := (← unwrap (Hist.newWithMax fp .u64 TRACKABLE_MAX SIGFIG))
  h ← h.addAssignValue TEST_VALUE_LEVEL
  h := h.reset
  check ((← h.countAt TEST_VALUE_LEVEL) == 0)
  check (h.len == 0)
  check (← verifyMax h)
#guard passes reset

/-- tests/histogram.rs:138 -/
def add : M Unit := do
  let mut h1 := (← unwrap (Hist.newWithMax fp .u64 TRACKABLE_MAX SIGFIG))
  let mut h2 := (← unwrap (Hist.newWithMax fp .u64 TRACKABLE_MAX SIGFIG))
  h1 ← h1.addAssignValue TEST_VALUE_LEVEL
  h1 ← h1.addAssignValue (1000 * TEST_VALUE_LEVEL)
  h2 ← h2.addAssignValue TEST_VALUE_LEVEL
  h2 ← h2.addAssignValue (1000 * TEST_VALUE_LEVEL)
  h1 ← h1.addAssign h2
  check ((← h1.countAt TEST_VALUE_LEVEL) == 2)
  check ((← h1.countAt (1000 * TEST_VALUE_LEVEL)) == 2)
  check (h1.len == 4)
  let mut big := (← unwrap (Hist.newWithMax fp .u64 (2 * TRACKABLE_MAX) SIGFIG))
  big ← big.addAssignValue TEST_VALUE_LEVEL
  big ← big.addAssignValue (1000 * TEST_VALUE_LEVEL)
  big ← big.addAssignValue (2 * TRACKABLE_MAX)
  big ← big.addAssign h1
  check ((← big.countAt TEST_VALUE_LEVEL) == 3)
  check ((← big.countAt (1000 * TEST_VALUE_LEVEL)) == 3)
  check ((← big.countAt (2 * TRACKABLE_MAX)) == 1)
  check (big.len == 7)
  h1 ← fails (h1.add big)
  check (← verifyMax h1)
  check (← verifyMax h2)
  check (← verifyMax big)
#guard passes add

/-- tests/histogram.rs:173 -/
def equivalentRange : M Unit := do
  let h := (← unwrap (Hist.newWithMax fp .u64 TRACKABLE_MAX SIGFIG))
  check ((← h.equivalentRange 1) == 1)
  check ((← h.equivalentRange 2500) == 2)
  check ((← h.equivalentRange 8191) == 4)
  check ((← h.equivalentRange 8192) == 8)
  check ((← h.equivalentRange 10000) == 8)
#guard passes equivalentRange

/-- tests/histogram.rs:183 -/
def scaledEquivalentRange : M Unit := do
  let h := (← unwrap (Hist.newWithBounds fp .u64 1024 TRACKABLE_MAX SIGFIG))
  check ((← h.equivalentRange 1024) == 1024)
  check ((← h.equivalentRange (2500 * 1024)) == (2 * 1024))
  check ((← h.equivalentRange (8191 * 1024)) == (4 * 1024))
  check ((← h.equivalentRange (8192 * 1024)) == (8 * 1024))
  check ((← h.equivalentRange (10000 * 1024)) == (8 * 1024))
#guard passes scaledEquivalentRange

/-- tests/histogram.rs:193 -/
def lowestEquivalent : M Unit := do
  let h := (← unwrap (Hist.newWithMax fp .u64 TRACKABLE_MAX SIGFIG))
  check ((← h.lowestEquivalent 10007) == 10000)
  check ((← h.lowestEquivalent 10009) == 10008)
#guard passes lowestEquivalent

/-- tests/histogram.rs:200 -/
def scaledLowestEquivalent : M Unit := do
  let h := (← unwrap (Hist.newWithBounds fp .u64 1024 TRACKABLE_MAX SIGFIG))
  check ((← h.lowestEquivalent (10007 * 1024)) == (10000 * 1024))
  check ((← h.lowestEquivalent (10009 * 1024)) == (10008 * 1024))
#guard passes scaledLowestEquivalent

/-- tests/histogram.rs:207 -/
def highestEquivalent : M Unit := do
  let h := (← unwrap (Hist.newWithMax fp .u64 TRACKABLE_MAX SIGFIG))
  check ((← h.highestEquivalent 8180) == 8183)
  check ((← h.highestEquivalent 8191) == 8191)
  check ((← h.highestEquivalent 8193) == 8199)
  check ((← h.highestEquivalent 9995) == 9999)
  check ((← h.highestEquivalent 10007) == 10007)
  check ((← h.highestEquivalent 10008) == 10015)
#guard passes highestEquivalent

/-- tests/histogram.rs:218 -/
def scaledHighestEquivalent : M Unit := do
  let h := (← unwrap (Hist.newWithBounds fp .u64 1024 TRACKABLE_MAX SIGFIG))
  check ((← h.highestEquivalent (8180 * 1024)) == ((8183 * 1024) + 1023))
  check ((← h.highestEquivalent (8191 * 1024)) == ((8191 * 1024) + 1023))
  check ((← h.highestEquivalent (8193 * 1024)) == ((8199 * 1024) + 1023))
  check ((← h.highestEquivalent (9995 * 1024)) == ((9999 * 1024) + 1023))
  check ((← h.highestEquivalent (10007 * 1024)) == ((10007 * 1024) + 1023))
  check ((← h.highestEquivalent (10008 * 1024)) == ((10015 * 1024) + 1023))
#guard passes scaledHighestEquivalent

/-- tests/histogram.rs:229 -/
def medianEquivalent : M Unit := do
  let h := (← unwrap (Hist.newWithMax fp .u64 TRACKABLE_MAX SIGFIG))
  check ((← h.medianEquivalent 4) == 4)
  check ((← h.medianEquivalent 5) == 5)
  check ((← h.medianEquivalent 4000) == 4001)
  check ((← h.medianEquivalent 8000) == 8002)
  check ((← h.medianEquivalent 10007) == 10004)
#guard passes medianEquivalent

/-- tests/histogram.rs:239 -/
def medianEquivalentDoesntPanicAtExtremes : M Unit := do
  let h := (← unwrap (Hist.newWithMax fp .u64 U64MAX 3))
  let _ : Nat := (← h.medianEquivalent U64MAX)
  let _ : Nat := (← h.medianEquivalent (U64MAX - 1))
  let _ : Nat := (← h.medianEquivalent 0)
  let _ : Nat := (← h.medianEquivalent 1)
#guard passes medianEquivalentDoesntPanicAtExtremes

/-- tests/histogram.rs:248 -/
def scaledMedianEquivalent : M Unit := do
  let h := (← unwrap (Hist.newWithBounds fp .u64 1024 TRACKABLE_MAX SIGFIG))
  check ((← h.medianEquivalent (1024 * 4)) == ((1024 * 4) + 512))
  check ((← h.medianEquivalent (1024 * 5)) == ((1024 * 5) + 512))
  check ((← h.medianEquivalent (1024 * 4000)) == (1024 * 4001))
  check ((← h.medianEquivalent (1024 * 8000)) == (1024 * 8002))
  check ((← h.medianEquivalent (1024 * 10007)) == (1024 * 10004))
#guard passes scaledMedianEquivalent

/-- tests/histogram.rs:281 -/
def clone : M Unit := do
  let mut h := (← unwrap (Hist.newWithMax fp .u64 TRACKABLE_MAX SIGFIG))
  h ← h.addAssignValue TEST_VALUE_LEVEL
  h ← h.addAssignValue (10 * TEST_VALUE_LEVEL)
  let max_ : Nat := h.high
  h ← okay (h.recordCorrect (max_ - 1) 31000000)
  areEqual h h
#guard passes clone

/-- tests/histogram.rs:293 -/
def scaledClone : M Unit := do
  let mut h := (← unwrap (Hist.newWithBounds fp .u64 1000 TRACKABLE_MAX SIGFIG))
  h ← h.addAssignValue TEST_VALUE_LEVEL
  h ← h.addAssignValue (10 * TEST_VALUE_LEVEL)
  let max_ : Nat := h.high
  h ← okay (h.recordCorrect (max_ - 1) 31000000)
  areEqual h h
#guard passes scaledClone

/-- tests/histogram.rs:305 -/
def setTo : M Unit := do
  let mut h1 := (← unwrap (Hist.newWithMax fp .u64 TRACKABLE_MAX SIGFIG))
  let mut h2 := (← unwrap (Hist.newWithMax fp .u64 TRACKABLE_MAX SIGFIG))
  h1 ← h1.addAssignValue TEST_VALUE_LEVEL
  h1 ← h1.addAssignValue (10 * TEST_VALUE_LEVEL)
  let max_ : Nat := h1.high
  h1 ← okay (h1.recordCorrect (max_ - 1) 31000000)
  h2 ← okay (h2.setTo h1)
  areEqual h1 h2
  h1 ← h1.addAssignValue (20 * TEST_VALUE_LEVEL)
  h2 ← okay (h2.setTo h1)
  areEqual h1 h2
#guard passes setTo

/-- tests/histogram.rs:324 -/
def scaledSetTo : M Unit := do
  let mut h1 := (← unwrap (Hist.newWithBounds fp .u64 1000 TRACKABLE_MAX SIGFIG))
  let mut h2 := (← unwrap (Hist.newWithBounds fp .u64 1000 TRACKABLE_MAX SIGFIG))
  h1 ← h1.addAssignValue TEST_VALUE_LEVEL
  h1 ← h1.addAssignValue (10 * TEST_VALUE_LEVEL)
  let max_ : Nat := h1.high
  h1 ← okay (h1.recordCorrect (max_ - 1) 31000000)
  h2 ← okay (h2.setTo h1)
  areEqual h1 h2
  h1 ← h1.addAssignValue (20 * TEST_VALUE_LEVEL)
  h2 ← okay (h2.setTo h1)
  areEqual h1 h2
#guard passes scaledSetTo

/-- tests/histogram.rs:388 -/
def valueCountOverflowFromRecordSaturatesU16 : M Unit := do
  let mut h := (← unwrap (Hist.newWithMax fp .u16 TRACKABLE_MAX 2))
  h ← okay (h.recordN 3 (65535 - 1))
  h ← okay (h.recordN 3 (65535 - 1))
  check (65535 == (← h.countAt 3))
  check (((65535 - 1) * 2) == h.len)
#guard passes valueCountOverflowFromRecordSaturatesU16

/-- tests/histogram.rs:401 -/
def valueCountOverflowFromRecordSaturatesU64 : M Unit := do
  let mut h := (← unwrap (Hist.newWithBounds fp .u64 1 U64MAX 3))
  h ← okay (h.recordN 1 (U64MAX - 1))
  h ← okay (h.recordN 1 (U64MAX - 1))
  check (U64MAX == (← h.countAt 1))
  check (U64MAX == h.len)
#guard passes valueCountOverflowFromRecordSaturatesU64

/-- tests/histogram.rs:412 -/
def valueCountOverflowFromRecordAutoresizeDoesntPanicSaturates : M Unit := do
  let mut h := (← unwrap (Hist.newWithBounds fp .u64 1 10000 3))
  h := h.auto true
  h ← okay (h.recordN 1 (U64MAX - 1))
  h ← okay (h.recordN 1 (U64MAX - 1))
  h ← okay (h.recordN 1000000000 (U64MAX - 1))
  h ← okay (h.recordN 1000000000 (U64MAX - 1))
  check (U64MAX == (← h.countAt 1))
  check (U64MAX == (← h.countAt 1000000000))
  check (U64MAX == h.len)
#guard passes valueCountOverflowFromRecordAutoresizeDoesntPanicSaturates

/-- tests/histogram.rs:429 -/
def valueCountOverflowFromAddSameDimensionsSaturates : M Unit := do
  let mut h := (← unwrap (Hist.newWithBounds fp .u64 1 U64MAX 3))
  let mut h2 := (← unwrap (Hist.newWithBounds fp .u64 1 U64MAX 3))
  h ← okay (h.recordN 1 (U64MAX - 1))
  h2 ← okay (h2.recordN 1 (U64MAX - 1))
  h ← okay (h.add h2)
  check (U64MAX == (← h.countAt 1))
  check (U64MAX == h.len)
#guard passes valueCountOverflowFromAddSameDimensionsSaturates

/-- tests/histogram.rs:442 -/
def valueCountOverflowFromAddDifferentPrecisionSaturates : M Unit := do
  let mut h := (← unwrap (Hist.newWithBounds fp .u64 1 U64MAX 3))
  let mut h2 := (← unwrap (Hist.newWithBounds fp .u64 1 30000 4))
  h ← okay (h.recordN 1 (U64MAX - 1))
  h2 ← okay (h2.recordN 1 (U64MAX - 1))
  h ← okay (h.add h2)
  check (U64MAX == (← h.countAt 1))
  check (U64MAX == h.len)
#guard passes valueCountOverflowFromAddDifferentPrecisionSaturates

/-- tests/histogram.rs:456 -/
def valueCountOverflowFromAddWithResizeToSameDimensionsSaturates : M Unit := do
  let mut h := (← unwrap (Hist.newWithBounds fp .u64 1 10000 3))
  h := h.auto true
  let mut h2 := (← unwrap (Hist.newWithBounds fp .u64 1 10000000000 3))
  h ← okay (h.recordN 1 (U64MAX - 1))
  h2 ← okay (h2.recordN 1 (U64MAX - 1))
  h2 ← okay (h2.recordN 10000000000 (U64MAX - 1))
  h ← okay (h.add h2)
  check (U64MAX == (← h.countAt 1))
  check (U64MAX == h.len)
#guard passes valueCountOverflowFromAddWithResizeToSameDimensionsSaturates

/-- tests/histogram.rs:472 -/
def totalCountOverflowFromRecordSaturates : M Unit := do
  let mut h := (← unwrap (Hist.newWithBounds fp .u64 1 U64MAX 3))
  h ← okay (h.recordN 1 (U64MAX - 1))
  h ← okay (h.recordN 10 (U64MAX - 1))
  check ((U64MAX - 1) == (← h.countAt 1))
  check ((U64MAX - 1) == (← h.countAt 10))
  check (U64MAX == h.len)
#guard passes totalCountOverflowFromRecordSaturates

/-- tests/histogram.rs:484 -/
def totalCountOverflowFromAddSameDimensionsSaturatesCalculatingOtherAddendTotal : M Unit := do
  let mut h := (← unwrap (Hist.newWithBounds fp .u64 1 U64MAX 3))
  let mut h2 := (← unwrap (Hist.newWithBounds fp .u64 1 U64MAX 3))
  h ← okay (h.recordN 1 (U64MAX - 10))
  h2 ← okay (h2.recordN 10 (U64MAX - 1))
  h2 ← okay (h2.recordN 20 10)
  h ← okay (h.add h2)
  check ((U64MAX - 10) == (← h.countAt 1))
  check (10 == (← h.countAt 20))
  check (U64MAX == h.len)
#guard passes totalCountOverflowFromAddSameDimensionsSaturatesCalculatingOtherAddendTotal

/-- tests/histogram.rs:503 -/
def totalCountOverflowFromAddSameDimensionsSaturatesWhenAddedToOrigTotalCount : M Unit := do
  let mut h := (← unwrap (Hist.newWithBounds fp .u64 1 U64MAX 3))
  let mut h2 := (← unwrap (Hist.newWithBounds fp .u64 1 U64MAX 3))
  h ← okay (h.recordN 1 (U64MAX - 10))
  h2 ← okay (h2.recordN 10 9)
  h2 ← okay (h2.recordN 20 9)
  h ← okay (h.add h2)
  check ((U64MAX - 10) == (← h.countAt 1))
  check (9 == (← h.countAt 20))
  check (U64MAX == h.len)
#guard passes totalCountOverflowFromAddSameDimensionsSaturatesWhenAddedToOrigTotalCount

/-- tests/histogram.rs:520 -/
def totalCountOverflowFromAddDifferentPrecisionSaturates : M Unit := do
  let mut h := (← unwrap (Hist.newWithBounds fp .u64 1 U64MAX 3))
  let mut h2 := (← unwrap (Hist.newWithBounds fp .u64 1 30000 4))
  h ← okay (h.recordN 1 (U64MAX - 1))
  h2 ← okay (h2.recordN 20 (U64MAX - 1))
  h ← okay (h.add h2)
  check ((U64MAX - 1) == (← h.countAt 1))
  check ((U64MAX - 1) == (← h.countAt 20))
  check (U64MAX == h.len)
#guard passes totalCountOverflowFromAddDifferentPrecisionSaturates

/-- tests/histogram.rs:536 -/
def totalCountOverflowFromAddWithResizeSaturates : M Unit := do
  let mut h := (← unwrap (Hist.newWithBounds fp .u64 1 10000 3))
  h := h.auto true
  let mut h2 := (← unwrap (Hist.newWithBounds fp .u64 1 10000000000 3))
  h ← okay (h.recordN 1 (U64MAX - 1))
  h2 ← okay (h2.recordN 1 (U64MAX - 1))
  h2 ← okay (h2.recordN 10000000000 (U64MAX - 1))
  h ← okay (h.add h2)
  check (U64MAX == (← h.countAt 1))
  check (U64MAX == h.len)
#guard passes totalCountOverflowFromAddWithResizeSaturates

/-- tests/histogram.rs:551 -/
def subtractUnderflowGuardedByPerValueCountCheck : M Unit := do
  let mut h := (← unwrap (Hist.newWithBounds fp .u64 1 U64MAX 3))
  let mut h2 := (← unwrap (Hist.newWithBounds fp .u64 1 U64MAX 3))
  h ← okay (h.recordN 1 1)
  h2 ← okay (h2.recordN 1 100)
  h ← failsWith SubtractionError.SubtrahendCountExceedsMinuendCount (h.subtract h2)
#guard passes subtractUnderflowGuardedByPerValueCountCheck

/-- tests/histogram.rs:565 -/
def recordedOnlyZeros : M Unit := do
  let mut h := (← unwrap (Hist.new fp .u64 1))
  h ← h.addAssignValue 0
  check ((← h.iterRecorded FUEL).length == 1)
#guard passes recordedOnlyZeros

end Hdr.Check.Histogram
