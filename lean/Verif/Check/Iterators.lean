import Verif.Check.Prelude

/-!
# tests/iterators.rs

Transcribed as described in Verif/Check/Prelude.lean.
Not transcribed: nothing.
-/

namespace Hdr.Check.Iterators

set_option linter.unusedVariables false

/-- tests/iterators.rs:4 -/
def iterRecordedNonSaturatedTotalCount : M Unit := do
  let mut h := (← unwrap (Hist.newWithBounds fp .u64 1 U64MAX 3))
  h ← okay (h.record 1)
  h ← okay (h.record 1000)
  h ← okay (h.record 1000000)
  let expected := [1, 1000, (← h.highestEquivalent 1000000)]
  check (expected == ((← h.iterRecorded FUEL).map (fun iv => iv.valueIteratedTo)))
#guard passes iterRecordedNonSaturatedTotalCount

/-- tests/iterators.rs:21 -/
def iterRecordedSaturatedTotalCount : M Unit := do
  let mut h := (← unwrap (Hist.newWithBounds fp .u64 1 U64MAX 3))
  h ← okay (h.recordN 1 U64MAX)
  h ← okay (h.recordN 1000 U64MAX)
  h ← okay (h.recordN 1000000 U64MAX)
  let expected := [1, 1000, (← h.highestEquivalent 1000000)]
  check (expected == ((← h.iterRecorded FUEL).map (fun iv => iv.valueIteratedTo)))
#guard passes iterRecordedSaturatedTotalCount

/-- tests/iterators.rs:38 -/
def iterLinearCountSinceLastIterationSaturates : M Unit := do
  let mut h := (← unwrap (Hist.newWithBounds fp .u64 1 U64MAX 3))
  h ← okay (h.recordN 1 U64MAX)
  h ← okay (h.recordN 4 (U64MAX - 1))
  h ← okay (h.recordN 5 (U64MAX - 1))
  h ← okay (h.recordN 6 100)
  h ← okay (h.recordN 7 200)
  h ← okay (h.recordN 10 400)
  let expected := [(1, U64MAX), (3, 0), (5, U64MAX), (7, 300), (9, 0), (11, 400)]
  check (expected == ((← h.iterLinear 2 FUEL).map (fun iv => (iv.valueIteratedTo, iv.countSinceLastIteration))))
#guard passes iterLinearCountSinceLastIterationSaturates

/-- tests/iterators.rs:73 -/
def iterLinearVisitsBucketsWiderThanStepSizeMultipleTimes : M Unit := do
  let mut h := (← unwrap (Hist.newWithBounds fp .u64 1 U64MAX 3))
  h ← okay (h.record 1)
  h ← okay (h.record 2047)
  h ← okay (h.record 2048)
  h ← okay (h.record 2049)
  h ← okay (h.record 4095)
  h ← okay (h.record 4096)
  h ← okay (h.record 4097)
  h ← okay (h.record 4098)
  h ← okay (h.record 4099)
  h ← okay (h.record 4100)
  let iterValues := ((← h.iterLinear 1 FUEL).map (fun iv => (iv.valueIteratedTo, iv.countSinceLastIteration)))
  check ((0, 0) == (iterValues.getD 0 default))
  check ((1, 1) == (iterValues.getD 1 default))
  check ((2046, 0) == (iterValues.getD 2046 default))
  check ((2047, 1) == (iterValues.getD 2047 default))
  check ((2048, 2) == (iterValues.getD 2048 default))
  check ((2049, 0) == (iterValues.getD 2049 default))
  check ((2050, 0) == (iterValues.getD 2050 default))
  check ((2051, 0) == (iterValues.getD 2051 default))
  check ((4094, 1) == (iterValues.getD 4094 default))
  check ((4095, 0) == (iterValues.getD 4095 default))
  check ((4096, 4) == (iterValues.getD 4096 default))
  check ((4097, 0) == (iterValues.getD 4097 default))
  check ((4098, 0) == (iterValues.getD 4098 default))
  check ((4099, 0) == (iterValues.getD 4099 default))
  check ((4100, 1) == (iterValues.getD 4100 default))
  check ((4101, 0) == (iterValues.getD 4101 default))
  check ((4102, 0) == (iterValues.getD 4102 default))
  check ((4103, 0) == (iterValues.getD 4103 default))
  check (4104 == iterValues.length)
#guard passes iterLinearVisitsBucketsWiderThanStepSizeMultipleTimes

/-- tests/iterators.rs:122 -/
def iterLinearVisitsBucketsOnceWhenStepSizeEqualsBucketSize : M Unit := do
  let mut h := (← unwrap (Hist.newWithBounds fp .u64 1 U64MAX 3))
  h ← okay (h.record 1)
  h ← okay (h.record 2047)
  h ← okay (h.record 2048)
  h ← okay (h.record 2049)
  h ← okay (h.record 4095)
  h ← okay (h.record 4096)
  h ← okay (h.record 4097)
  h ← okay (h.record 4098)
  h ← okay (h.record 4099)
  h ← okay (h.record 4100)
  let iterValues := ((← h.iterLinear 4 FUEL).map (fun iv => (iv.valueIteratedTo, iv.countSinceLastIteration)))
  check ((3, 1) == (iterValues.getD 0 default))
  check ((2047, 1) == (iterValues.getD 511 default))
  check ((2051, 2) == (iterValues.getD 512 default))
  check ((4095, 1) == (iterValues.getD 1023 default))
  check ((4099, 4) == (iterValues.getD 1024 default))
  check ((4103, 1) == (iterValues.getD 1025 default))
  check (1026 == iterValues.length)
#guard passes iterLinearVisitsBucketsOnceWhenStepSizeEqualsBucketSize

/-- tests/iterators.rs:159 -/
def iterAllValuesAllBuckets : M Unit := do
  let mut h := (← histo64 1 8191 3)
  h ← okay (h.record 1)
  h ← okay (h.record 2)
  h ← okay (h.record 1024)
  h ← okay (h.record 2048)
  h ← okay (h.record 4096)
  h ← okay (h.record (8192 - 4))
  let iterValues := ((← h.iterAll FUEL).map (fun v => (v.valueIteratedTo, v.countAtValue)))
  check ((2048 + (2 * 1024)) == iterValues.length)
  let expected := [(1, 1), (2, 1), (1024, 1), ((2048 + 1), 1), ((4096 + 3), 1), ((8192 - 1), 1)]
  let nonzeroCount := ((iterValues.filter (fun v => (v.2 != 0))).map (fun v => v))
  check (expected == nonzeroCount)
#guard passes iterAllValuesAllBuckets

/-- tests/iterators.rs:201 -/
def iterAllValuesAllBucketsUnitMagnitude2 : M Unit := do
  let mut h := (← histo64 4 (16384 - 1) 3)
  h ← okay (h.record 4)
  h ← okay (h.record 4096)
  h ← okay (h.record 8192)
  h ← okay (h.record (16384 - 8))
  let iterValues := ((← h.iterAll FUEL).map (fun v => (v.valueIteratedTo, v.countAtValue)))
  check ((2048 + 1024) == iterValues.length)
  let expected := [((4 + 3), 1), ((4096 + 3), 1), ((8192 + 7), 1), ((16384 - 1), 1)]
  let nonzeroCount := ((iterValues.filter (fun v => (v.2 != 0))).map (fun v => v))
  check (expected == nonzeroCount)
#guard passes iterAllValuesAllBucketsUnitMagnitude2

/-- tests/iterators.rs:233 -/
def iterRecordedValuesAllBuckets : M Unit := do
  let mut h := (← histo64 1 8191 3)
  h ← okay (h.record 1)
  h ← okay (h.record 2)
  h ← okay (h.record 1024)
  h ← okay (h.record 2048)
  h ← okay (h.record 4096)
  h ← okay (h.record (8192 - 4))
  let iterValues := ((← h.iterRecorded FUEL).map (fun v => (v.valueIteratedTo, v.countAtValue)))
  let expected := [(1, 1), (2, 1), (1024, 1), ((2048 + 1), 1), ((4096 + 3), 1), ((8192 - 1), 1)]
  check (expected == iterValues)
#guard passes iterRecordedValuesAllBuckets

/-- tests/iterators.rs:265 -/
def iterRecordedValuesAllBucketsUnitMagnitude2 : M Unit := do
  let mut h := (← histo64 4 (16384 - 1) 3)
  h ← okay (h.record 4)
  h ← okay (h.record 4096)
  h ← okay (h.record 8192)
  h ← okay (h.record (16384 - 8))
  let iterValues := ((← h.iterRecorded FUEL).map (fun v => (v.valueIteratedTo, v.countAtValue)))
  let expected := [((4 + 3), 1), ((4096 + 3), 1), ((8192 + 7), 1), ((16384 - 1), 1)]
  check (expected == iterValues)
#guard passes iterRecordedValuesAllBucketsUnitMagnitude2

/-- tests/iterators.rs:287 -/
def iterLogarithmicBucketValuesMin1Base2AllBuckets : M Unit := do
  let h := (← prepareHisto)
  let iterValues := ((← h.iterLog 1 (f64 2.0) FUEL).map (fun v => (v.valueIteratedTo, v.countSinceLastIteration, v.countAtValue)))
  let expected := [(0, 0, 0), (1, 1, 1), (3, 1, 0), (7, 0, 0), (15, 0, 0), (31, 3, 1), (63, 0, 0), (127, 0, 0), (255, 0, 0), (511, 0, 0), (1023, 0, 0), (2047, 3, 0), (4095, 1, 1)]
  check (expected == iterValues)
#guard passes iterLogarithmicBucketValuesMin1Base2AllBuckets

/-- tests/iterators.rs:321 -/
def iterLogarithmicBucketValuesMin4Base2AllBuckets : M Unit := do
  let h := (← prepareHisto)
  let iterValues := ((← h.iterLog 4 (f64 2.0) FUEL).map (fun v => (v.valueIteratedTo, v.countSinceLastIteration, v.countAtValue)))
  let expected := [(3, 2, 0), (7, 0, 0), (15, 0, 0), (31, 3, 1), (63, 0, 0), (127, 0, 0), (255, 0, 0), (511, 0, 0), (1023, 0, 0), (2047, 3, 0), (4095, 1, 1)]
  check (expected == iterValues)
#guard passes iterLogarithmicBucketValuesMin4Base2AllBuckets

/-- tests/iterators.rs:353 -/
def iterLogarithmicBucketValuesMin1Base2AllBucketsUnitMagnitude2 : M Unit := do
  let mut h := (← histo64 4 16383 3)
  h ← okay (h.record 3)
  h ← okay (h.record 4)
  h ← okay (h.record 70)
  h ← okay (h.record 80)
  h ← okay (h.record 90)
  h ← okay (h.record 5000)
  h ← okay (h.record 5100)
  h ← okay (h.record 5200)
  h ← okay (h.record (16384 - 1))
  let iterValues := ((← h.iterLog 1 (f64 2.0) FUEL).map (fun v => (v.valueIteratedTo, v.countSinceLastIteration, v.countAtValue)))
  let expected := [(0, 1, 1), (1, 0, 1), (3, 0, 1), (7, 1, 1), (15, 0, 0), (31, 0, 0), (63, 0, 0), (127, 3, 0), (255, 0, 0), (511, 0, 0), (1023, 0, 0), (2047, 0, 0), (4095, 0, 0), (8191, 3, 0), (16383, 1, 1)]
  check (expected == iterValues)
#guard passes iterLogarithmicBucketValuesMin1Base2AllBucketsUnitMagnitude2

/-- tests/iterators.rs:408 -/
def iterLogarithmicBucketValuesMin1Base10AllBuckets : M Unit := do
  let h := (← prepareHisto)
  let iterValues := ((← h.iterLog 1 (f64 10.0) FUEL).map (fun v => (v.valueIteratedTo, v.countSinceLastIteration, v.countAtValue)))
  let expected := [(0, 0, 0), (9, 2, 0), (99, 3, 0), (999, 0, 0), (9999, 4, 1)]
  check (expected == iterValues)
#guard passes iterLogarithmicBucketValuesMin1Base10AllBuckets

/-- tests/iterators.rs:428 -/
def iterLinearBucketValuesSize8AllBuckets : M Unit := do
  let mut h := (← histo64 1 63 1)
  check (48 == h.distinctValues)
  h ← okay (h.record 3)
  h ← okay (h.record 4)
  h ← okay (h.record 7)
  h ← okay (h.record 24)
  h ← okay (h.record 25)
  h ← okay (h.record 61)
  h ← okay (h.record 62)
  h ← okay (h.record 63)
  let iterValues := ((← h.iterLinear 8 FUEL).map (fun v => (v.valueIteratedTo, v.countSinceLastIteration, v.countAtValue)))
  let expected := [(7, 3, 1), (15, 0, 0), (23, 0, 0), (31, 2, 0), (39, 0, 0), (47, 0, 0), (55, 0, 0), (63, 3, 2)]
  check (expected == iterValues)
#guard passes iterLinearBucketValuesSize8AllBuckets

/-- tests/iterators.rs:474 -/
def iterQuantilesSmorgasboard : M Unit := do
  let mut h := (← histo64 1 4095 3)
  for i in List.range' 0 (4096 - 0) do
    h ← okay (h.record i)
  let iterValues := ((← h.iterQuantiles lg 2 FUEL).map (fun v => (v.valueIteratedTo, v.countSinceLastIteration, v.countAtValue, v.quantile, v.quantileIteratedTo)))
  let expected := [(0, 1, 1, (f64 0.000244140625), (f64 0.0)), (1023, 1023, 1, (f64 0.25), (f64 0.25)), (2047, 1024, 1, (f64 0.5), (f64 0.5)), (2559, 512, 2, (f64 0.625), (f64 0.625)), (3071, 512, 2, (f64 0.75), (f64 0.75)), (3327, 256, 2, (f64 0.8125), (f64 0.8125)), (3583, 256, 2, (f64 0.875), (f64 0.875)), (3711, 128, 2, (f64 0.90625), (f64 0.90625)), (3839, 128, 2, (f64 0.9375), (f64 0.9375)), (3903, 64, 2, (f64 0.953125), (f64 0.953125)), (3967, 64, 2, (f64 0.96875), (f64 0.96875)), (3999, 32, 2, (f64 0.9765625), (f64 0.9765625)), (4031, 32, 2, (f64 0.984375), (f64 0.984375)), (4047, 16, 2, (f64 0.98828125), (f64 0.98828125)), (4063, 16, 2, (f64 0.9921875), (f64 0.9921875)), (4071, 8, 2, (f64 0.994140625), (f64 0.994140625)), (4079, 8, 2, (f64 0.99609375), (f64 0.99609375)), (4083, 4, 2, (f64 0.9970703125), (f64 0.9970703125)), (4087, 4, 2, (f64 0.998046875), (f64 0.998046875)), (4089, 2, 2, (f64 0.99853515625), (f64 0.99853515625)), (4091, 2, 2, (f64 0.9990234375), (f64 0.9990234375)), (4093, 2, 2, (f64 0.99951171875), (f64 0.999267578125)), (4093, 0, 2, (f64 0.99951171875), (f64 0.99951171875)), (4095, 2, 2, (f64 1.0), (f64 0.9996337890625)), (4095, 0, 2, (f64 1.0), (f64 1.0))]
  check (expected == iterValues)
#guard passes iterQuantilesSmorgasboard

/-- tests/iterators.rs:530 -/
def iterQuantilesIteratesToEndSkipsIntermediateAtFinalValue : M Unit := do
  let mut h := (← histo64 1 4095 3)
  h ← okay (h.recordN 1 1)
  h ← okay (h.recordN 1000 1000000)
  let iterValues := ((← h.iterQuantiles lg 2 FUEL).map (fun v => (v.valueIteratedTo, v.countSinceLastIteration, v.countAtValue, v.quantile, v.quantileIteratedTo)))
  let expected := [(1, 1, 1, (f64 0.000000999999000001), (f64 0.0)), (1000, 1000000, 1000000, (f64 1.0), (f64 0.25)), (1000, 0, 1000000, (f64 1.0), (f64 1.0))]
  check (expected == iterValues)
#guard passes iterQuantilesIteratesToEndSkipsIntermediateAtFinalValue

/-- tests/iterators.rs:561 -/
def iterQuantilesSaturatedCountBeforeMaxValue : M Unit := do
  let mut h := (← histo64 1 4095 3)
  for i in List.range' 0 (1000 - 0) do
    h ← okay (h.recordN i (U64MAX / 100))
  let iterValues := ((← h.iterQuantiles lg 2 FUEL).map (fun v => (v.valueIteratedTo, v.countSinceLastIteration, v.countAtValue, v.quantile, v.quantileIteratedTo)))
  let expected := [(0, 184467440737095516, 184467440737095516, (f64 0.01), (f64 0.0)), (24, 4427218577690292384, 184467440737095516, (f64 0.25), (f64 0.25)), (49, 4611686018427387900, 184467440737095516, (f64 0.5), (f64 0.5)), (62, 2398076729582241708, 184467440737095516, (f64 0.63), (f64 0.625)), (74, 2213609288845146192, 184467440737095516, (f64 0.75), (f64 0.75)), (81, 1291272085159668612, 184467440737095516, (f64 0.82), (f64 0.8125)), (87, 1106804644422573096, 184467440737095516, (f64 0.88), (f64 0.875)), (90, 553402322211286548, 184467440737095516, (f64 0.91), (f64 0.90625)), (93, 553402322211286548, 184467440737095516, (f64 0.94), (f64 0.9375)), (95, 368934881474191032, 184467440737095516, (f64 0.96), (f64 0.953125)), (96, 184467440737095516, 184467440737095516, (f64 0.97), (f64 0.96875)), (97, 184467440737095516, 184467440737095516, (f64 0.98), (f64 0.9765625)), (98, 184467440737095516, 184467440737095516, (f64 0.99), (f64 0.984375)), (98, 0, 184467440737095516, (f64 0.99), (f64 0.98828125)), (99, 184467440737095516, 184467440737095516, (f64 1.0), (f64 0.9921875)), (99, 0, 184467440737095516, (f64 1.0), (f64 0.994140625)), (99, 0, 184467440737095516, (f64 1.0), (f64 0.99609375)), (99, 0, 184467440737095516, (f64 1.0), (f64 0.9970703125)), (99, 0, 184467440737095516, (f64 1.0), (f64 0.998046875)), (99, 0, 184467440737095516, (f64 1.0), (f64 0.99853515625)), (99, 0, 184467440737095516, (f64 1.0), (f64 0.9990234375)), (99, 0, 184467440737095516, (f64 1.0), (f64 0.999267578125)), (99, 0, 184467440737095516, (f64 1.0), (f64 0.99951171875)), (99, 0, 184467440737095516, (f64 1.0), (f64 0.9996337890625)), (99, 0, 184467440737095516, (f64 1.0), (f64 0.999755859375)), (99, 0, 184467440737095516, (f64 1.0), (f64 0.99981689453125)), (99, 0, 184467440737095516, (f64 1.0), (f64 0.9998779296875)), (99, 0, 184467440737095516, (f64 1.0), (f64 0.999908447265625)), (99, 0, 184467440737095516, (f64 1.0), (f64 0.99993896484375)), (99, 0, 184467440737095516, (f64 1.0), (f64 0.9999542236328125)), (99, 0, 184467440737095516, (f64 1.0), (f64 0.999969482421875)), (99, 0, 184467440737095516, (f64 1.0), (f64 0.9999771118164063)), (99, 0, 184467440737095516, (f64 1.0), (f64 0.9999847412109375)), (99, 0, 184467440737095516, (f64 1.0), (f64 0.9999885559082031)), (99, 0, 184467440737095516, (f64 1.0), (f64 0.9999923706054688)), (99, 0, 184467440737095516, (f64 1.0), (f64 0.9999942779541016)), (99, 0, 184467440737095516, (f64 1.0), (f64 0.9999961853027344)), (99, 0, 184467440737095516, (f64 1.0), (f64 0.9999971389770508)), (99, 0, 184467440737095516, (f64 1.0), (f64 0.9999980926513672)), (99, 0, 184467440737095516, (f64 1.0), (f64 0.9999985694885254)), (99, 0, 184467440737095516, (f64 1.0), (f64 0.9999990463256836)), (99, 0, 184467440737095516, (f64 1.0), (f64 0.9999992847442627)), (99, 0, 184467440737095516, (f64 1.0), (f64 0.9999995231628418)), (99, 0, 184467440737095516, (f64 1.0), (f64 0.9999996423721313)), (99, 0, 184467440737095516, (f64 1.0), (f64 0.9999997615814209)), (99, 0, 184467440737095516, (f64 1.0), (f64 0.9999998211860657)), (99, 0, 184467440737095516, (f64 1.0), (f64 0.9999998807907104)), (99, 0, 184467440737095516, (f64 1.0), (f64 0.9999999105930328)), (99, 0, 184467440737095516, (f64 1.0), (f64 0.9999999403953552)), (99, 0, 184467440737095516, (f64 1.0), (f64 0.9999999552965164)), (99, 0, 184467440737095516, (f64 1.0), (f64 0.9999999701976776)), (99, 0, 184467440737095516, (f64 1.0), (f64 0.9999999776482582)), (99, 0, 184467440737095516, (f64 1.0), (f64 0.9999999850988388)), (99, 0, 184467440737095516, (f64 1.0), (f64 0.9999999888241291)), (99, 0, 184467440737095516, (f64 1.0), (f64 0.9999999925494194)), (99, 0, 184467440737095516, (f64 1.0), (f64 0.9999999944120646)), (99, 0, 184467440737095516, (f64 1.0), (f64 0.9999999962747097)), (99, 0, 184467440737095516, (f64 1.0), (f64 0.9999999972060323)), (99, 0, 184467440737095516, (f64 1.0), (f64 0.9999999981373549)), (99, 0, 184467440737095516, (f64 1.0), (f64 0.9999999986030161)), (99, 0, 184467440737095516, (f64 1.0), (f64 0.9999999990686774)), (99, 0, 184467440737095516, (f64 1.0), (f64 0.9999999993015081)), (99, 0, 184467440737095516, (f64 1.0), (f64 0.9999999995343387)), (99, 0, 184467440737095516, (f64 1.0), (f64 0.999999999650754)), (99, 0, 184467440737095516, (f64 1.0), (f64 0.9999999997671694)), (99, 0, 184467440737095516, (f64 1.0), (f64 0.999999999825377)), (99, 0, 184467440737095516, (f64 1.0), (f64 0.9999999998835847)), (99, 0, 184467440737095516, (f64 1.0), (f64 0.9999999999126885)), (99, 0, 184467440737095516, (f64 1.0), (f64 0.9999999999417923)), (99, 0, 184467440737095516, (f64 1.0), (f64 0.9999999999563443)), (99, 0, 184467440737095516, (f64 1.0), (f64 0.9999999999708962)), (99, 0, 184467440737095516, (f64 1.0), (f64 0.9999999999781721)), (99, 0, 184467440737095516, (f64 1.0), (f64 0.9999999999854481)), (99, 0, 184467440737095516, (f64 1.0), (f64 0.9999999999890861)), (99, 0, 184467440737095516, (f64 1.0), (f64 0.999999999992724)), (99, 0, 184467440737095516, (f64 1.0), (f64 0.999999999994543)), (99, 0, 184467440737095516, (f64 1.0), (f64 0.999999999996362)), (99, 0, 184467440737095516, (f64 1.0), (f64 0.9999999999972715)), (99, 0, 184467440737095516, (f64 1.0), (f64 0.999999999998181)), (99, 0, 184467440737095516, (f64 1.0), (f64 0.9999999999986358)), (99, 0, 184467440737095516, (f64 1.0), (f64 0.9999999999990905)), (99, 0, 184467440737095516, (f64 1.0), (f64 0.9999999999993179)), (99, 0, 184467440737095516, (f64 1.0), (f64 0.9999999999995453)), (99, 0, 184467440737095516, (f64 1.0), (f64 0.9999999999996589)), (99, 0, 184467440737095516, (f64 1.0), (f64 0.9999999999997726)), (99, 0, 184467440737095516, (f64 1.0), (f64 0.9999999999998295)), (99, 0, 184467440737095516, (f64 1.0), (f64 0.9999999999998863)), (99, 0, 184467440737095516, (f64 1.0), (f64 0.9999999999999147)), (99, 0, 184467440737095516, (f64 1.0), (f64 0.9999999999999432)), (99, 0, 184467440737095516, (f64 1.0), (f64 0.9999999999999574)), (99, 0, 184467440737095516, (f64 1.0), (f64 0.9999999999999716)), (99, 0, 184467440737095516, (f64 1.0), (f64 0.9999999999999787)), (99, 0, 184467440737095516, (f64 1.0), (f64 0.9999999999999858)), (99, 0, 184467440737095516, (f64 1.0), (f64 0.9999999999999893)), (99, 0, 184467440737095516, (f64 1.0), (f64 0.9999999999999929)), (99, 0, 184467440737095516, (f64 1.0), (f64 0.9999999999999947)), (99, 0, 184467440737095516, (f64 1.0), (f64 0.9999999999999964)), (99, 0, 184467440737095516, (f64 1.0), (f64 0.9999999999999973)), (99, 0, 184467440737095516, (f64 1.0), (f64 0.9999999999999982)), (99, 0, 184467440737095516, (f64 1.0), (f64 0.9999999999999987)), (99, 0, 184467440737095516, (f64 1.0), (f64 0.9999999999999991)), (99, 0, 184467440737095516, (f64 1.0), (f64 0.9999999999999993)), (99, 0, 184467440737095516, (f64 1.0), (f64 0.9999999999999996)), (99, 0, 184467440737095516, (f64 1.0), (f64 0.9999999999999997)), (99, 0, 184467440737095516, (f64 1.0), (f64 0.9999999999999998)), (99, 0, 184467440737095516, (f64 1.0), (f64 1.0))]
  check (expected == iterValues)
#guard passes iterQuantilesSaturatedCountBeforeMaxValue

/-- tests/iterators.rs:703 -/
def iterQuantilesIteratesToQuantile10AsItReachesLastBucket : M Unit := do
  let mut h := (← histo64 1 4095 3)
  let total : Nat := 10000000000000000
  let quantile := (f64 0.9999999999999998)
  let firstBucket : Nat := (F64.toU64 (F64.mul quantile (F64.ofNat total)))
  check (9999999999999998 == firstBucket)
  h ← okay (h.recordN 1 firstBucket)
  h ← okay (h.recordN 2 2)
  let iterValues := ((← h.iterQuantiles lg 2 FUEL).map (fun v => (v.valueIteratedTo, v.countSinceLastIteration, v.countAtValue, v.quantile, v.quantileIteratedTo)))
  let expected := [(1, firstBucket, firstBucket, quantile, (f64 0.0)), (1, 0, firstBucket, quantile, (f64 0.25)), (1, 0, firstBucket, quantile, (f64 0.5)), (1, 0, firstBucket, quantile, (f64 0.625)), (1, 0, firstBucket, quantile, (f64 0.75)), (1, 0, firstBucket, quantile, (f64 0.8125)), (1, 0, firstBucket, quantile, (f64 0.875)), (1, 0, firstBucket, quantile, (f64 0.90625)), (1, 0, firstBucket, quantile, (f64 0.9375)), (1, 0, firstBucket, quantile, (f64 0.953125)), (1, 0, firstBucket, quantile, (f64 0.96875)), (1, 0, firstBucket, quantile, (f64 0.9765625)), (1, 0, firstBucket, quantile, (f64 0.984375)), (1, 0, firstBucket, quantile, (f64 0.98828125)), (1, 0, firstBucket, quantile, (f64 0.9921875)), (1, 0, firstBucket, quantile, (f64 0.994140625)), (1, 0, firstBucket, quantile, (f64 0.99609375)), (1, 0, firstBucket, quantile, (f64 0.9970703125)), (1, 0, firstBucket, quantile, (f64 0.998046875)), (1, 0, firstBucket, quantile, (f64 0.99853515625)), (1, 0, firstBucket, quantile, (f64 0.9990234375)), (1, 0, firstBucket, quantile, (f64 0.999267578125)), (1, 0, firstBucket, quantile, (f64 0.99951171875)), (1, 0, firstBucket, quantile, (f64 0.9996337890625)), (1, 0, firstBucket, quantile, (f64 0.999755859375)), (1, 0, firstBucket, quantile, (f64 0.99981689453125)), (1, 0, firstBucket, quantile, (f64 0.9998779296875)), (1, 0, firstBucket, quantile, (f64 0.999908447265625)), (1, 0, firstBucket, quantile, (f64 0.99993896484375)), (1, 0, firstBucket, quantile, (f64 0.9999542236328125)), (1, 0, firstBucket, quantile, (f64 0.999969482421875)), (1, 0, firstBucket, quantile, (f64 0.9999771118164063)), (1, 0, firstBucket, quantile, (f64 0.9999847412109375)), (1, 0, firstBucket, quantile, (f64 0.9999885559082031)), (1, 0, firstBucket, quantile, (f64 0.9999923706054688)), (1, 0, firstBucket, quantile, (f64 0.9999942779541016)), (1, 0, firstBucket, quantile, (f64 0.9999961853027344)), (1, 0, firstBucket, quantile, (f64 0.9999971389770508)), (1, 0, firstBucket, quantile, (f64 0.9999980926513672)), (1, 0, firstBucket, quantile, (f64 0.9999985694885254)), (1, 0, firstBucket, quantile, (f64 0.9999990463256836)), (1, 0, firstBucket, quantile, (f64 0.9999992847442627)), (1, 0, firstBucket, quantile, (f64 0.9999995231628418)), (1, 0, firstBucket, quantile, (f64 0.9999996423721313)), (1, 0, firstBucket, quantile, (f64 0.9999997615814209)), (1, 0, firstBucket, quantile, (f64 0.9999998211860657)), (1, 0, firstBucket, quantile, (f64 0.9999998807907104)), (1, 0, firstBucket, quantile, (f64 0.9999999105930328)), (1, 0, firstBucket, quantile, (f64 0.9999999403953552)), (1, 0, firstBucket, quantile, (f64 0.9999999552965164)), (1, 0, firstBucket, quantile, (f64 0.9999999701976776)), (1, 0, firstBucket, quantile, (f64 0.9999999776482582)), (1, 0, firstBucket, quantile, (f64 0.9999999850988388)), (1, 0, firstBucket, quantile, (f64 0.9999999888241291)), (1, 0, firstBucket, quantile, (f64 0.9999999925494194)), (1, 0, firstBucket, quantile, (f64 0.9999999944120646)), (1, 0, firstBucket, quantile, (f64 0.9999999962747097)), (1, 0, firstBucket, quantile, (f64 0.9999999972060323)), (1, 0, firstBucket, quantile, (f64 0.9999999981373549)), (1, 0, firstBucket, quantile, (f64 0.9999999986030161)), (1, 0, firstBucket, quantile, (f64 0.9999999990686774)), (1, 0, firstBucket, quantile, (f64 0.9999999993015081)), (1, 0, firstBucket, quantile, (f64 0.9999999995343387)), (1, 0, firstBucket, quantile, (f64 0.999999999650754)), (1, 0, firstBucket, quantile, (f64 0.9999999997671694)), (1, 0, firstBucket, quantile, (f64 0.999999999825377)), (1, 0, firstBucket, quantile, (f64 0.9999999998835847)), (1, 0, firstBucket, quantile, (f64 0.9999999999126885)), (1, 0, firstBucket, quantile, (f64 0.9999999999417923)), (1, 0, firstBucket, quantile, (f64 0.9999999999563443)), (1, 0, firstBucket, quantile, (f64 0.9999999999708962)), (1, 0, firstBucket, quantile, (f64 0.9999999999781721)), (1, 0, firstBucket, quantile, (f64 0.9999999999854481)), (1, 0, firstBucket, quantile, (f64 0.9999999999890861)), (1, 0, firstBucket, quantile, (f64 0.999999999992724)), (1, 0, firstBucket, quantile, (f64 0.999999999994543)), (1, 0, firstBucket, quantile, (f64 0.999999999996362)), (1, 0, firstBucket, quantile, (f64 0.9999999999972715)), (1, 0, firstBucket, quantile, (f64 0.999999999998181)), (1, 0, firstBucket, quantile, (f64 0.9999999999986358)), (1, 0, firstBucket, quantile, (f64 0.9999999999990905)), (1, 0, firstBucket, quantile, (f64 0.9999999999993179)), (1, 0, firstBucket, quantile, (f64 0.9999999999995453)), (1, 0, firstBucket, quantile, (f64 0.9999999999996589)), (1, 0, firstBucket, quantile, (f64 0.9999999999997726)), (1, 0, firstBucket, quantile, (f64 0.9999999999998295)), (1, 0, firstBucket, quantile, (f64 0.9999999999998863)), (1, 0, firstBucket, quantile, (f64 0.9999999999999147)), (1, 0, firstBucket, quantile, (f64 0.9999999999999432)), (1, 0, firstBucket, quantile, (f64 0.9999999999999574)), (1, 0, firstBucket, quantile, (f64 0.9999999999999716)), (1, 0, firstBucket, quantile, (f64 0.9999999999999787)), (1, 0, firstBucket, quantile, (f64 0.9999999999999858)), (1, 0, firstBucket, quantile, (f64 0.9999999999999893)), (1, 0, firstBucket, quantile, (f64 0.9999999999999929)), (1, 0, firstBucket, quantile, (f64 0.9999999999999947)), (1, 0, firstBucket, quantile, (f64 0.9999999999999964)), (1, 0, firstBucket, quantile, (f64 0.9999999999999973)), (1, 0, firstBucket, quantile, (f64 0.9999999999999982)), (1, 0, firstBucket, quantile, (f64 0.9999999999999987)), (1, 0, firstBucket, quantile, (f64 0.9999999999999991)), (1, 0, firstBucket, quantile, (f64 0.9999999999999993)), (1, 0, firstBucket, quantile, (f64 0.9999999999999996)), (1, 0, firstBucket, quantile, (f64 0.9999999999999997)), (1, 0, firstBucket, quantile, (f64 0.9999999999999998)), (2, 2, 2, (f64 1.0), (f64 1.0))]
  check (expected == iterValues)
#guard passes iterQuantilesIteratesToQuantile10AsItReachesLastBucket

/-- tests/iterators.rs:844 -/
def iterQuantilesOneValue : M Unit := do
  let mut h := (← histo64 1 4095 3)
  h ← okay (h.recordN 1 1)
  let iterValues := ((← h.iterQuantiles lg 2 FUEL).map (fun v => (v.valueIteratedTo, v.countSinceLastIteration, v.countAtValue, v.quantile, v.quantileIteratedTo)))
  let expected := [(1, 1, 1, (f64 1.0), (f64 0.0)), (1, 0, 1, (f64 1.0), (f64 1.0))]
  check (expected == iterValues)
#guard passes iterQuantilesOneValue

/-- tests/iterators.rs:869 -/
def iterQuantilesEmpty : M Unit := do
  let h := (← histo64 1 4095 3)
  check (0 == (← h.iterQuantiles lg 2 FUEL).length)
#guard passes iterQuantilesEmpty

end Hdr.Check.Iterators
