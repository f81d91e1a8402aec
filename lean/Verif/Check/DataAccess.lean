import Verif.Check.Prelude

/-!
# tests/data_access.rs

Transcribed as described in Verif/Check/Prelude.lean.
Not transcribed: `linear_iter_corrected`. `get_stdev` and `value_duplication` are transcribed by hand.
-/

namespace Hdr.Check.DataAccess

set_option linter.unusedVariables false

/-- tests/data_access.rs:78 -/
def scalingEquivalence (l : Loaded) : M Unit := do
  let hist := l.hist
  let scaledHist := l.scaledHist
  let post := l.post
  let scaledPost := l.scaledPost
  check (near (F64.mul (← hist.mean) (F64.ofNat SCALEF)) (← scaledHist.mean) (f64 0.000001))
  check (hist.len == scaledHist.len)
  let expected99th : Nat := ((← hist.valueAtQuantile (f64 0.99)) * 512)
  let scaled99th : Nat := (← scaledHist.valueAtQuantile (f64 0.99))
  check ((← hist.lowestEquivalent expected99th) == (← scaledHist.lowestEquivalent scaled99th))
  check (near (F64.mul (← hist.mean) (F64.ofNat SCALEF)) (← scaledHist.mean) (f64 0.000001))
  check (hist.len == scaledHist.len)
  check ((← scaledHist.highestEquivalent ((← hist.valueAtQuantile (f64 0.99)) * 512)) == (← scaledHist.highestEquivalent (← scaledHist.valueAtQuantile (f64 0.99))))
  check ((← scaledHist.highestEquivalent ((← hist.max) * 512)) == (← scaledHist.max))
  check (near (F64.mul (← post.mean) (F64.ofNat SCALEF)) (← scaledPost.mean) (f64 0.000001))
  check (post.len == scaledPost.len)
  check (((← post.lowestEquivalent (← post.valueAtQuantile (f64 0.99))) * SCALEF) == (← scaledPost.lowestEquivalent (← scaledPost.valueAtQuantile (f64 0.99))))
  check ((← scaledPost.highestEquivalent ((← post.max) * 512)) == (← scaledPost.max))

/-- tests/data_access.rs:132 -/
def totalCount (l : Loaded) : M Unit := do
  let hist := l.hist
  let raw := l.raw
  check (raw.len == 10001)
  check (hist.len == 20000)

/-- tests/data_access.rs:140 -/
def getMaxValue (l : Loaded) : M Unit := do
  let hist := l.hist
  check (← hist.equivalent (← hist.max) 100000000)

/-- tests/data_access.rs:147 -/
def getMinValue (l : Loaded) : M Unit := do
  let hist := l.hist
  check (← hist.equivalent (← hist.min) 1000)

/-- tests/data_access.rs:154 -/
def getMean (l : Loaded) : M Unit := do
  let hist := l.hist
  let raw := l.raw
  let expectedRawMean := (F64.div (F64.add (F64.mul (f64 10000.0) (f64 1000.0)) (F64.mul (f64 1.0) (f64 100000000.0))) (f64 10001.0))
  let expectedMean := (F64.div (F64.add (f64 1000.0) (f64 50000000.0)) (f64 2.0))
  check (near (← raw.mean) expectedRawMean (f64 0.001))
  check (near (← hist.mean) expectedMean (f64 0.001))

/-- tests/data_access.rs:195 -/
def quantiles (l : Loaded) : M Unit := do
  let hist := l.hist
  let raw := l.raw
  check (near (F64.ofNat (← raw.valueAtQuantile (f64 0.3))) (f64 1000.0) (f64 0.001))
  check (near (F64.ofNat (← raw.valueAtQuantile (f64 0.99))) (f64 1000.0) (f64 0.001))
  check (near (F64.ofNat (← raw.valueAtQuantile (f64 0.9999))) (f64 1000.0) (f64 0.001))
  check (near (F64.ofNat (← raw.valueAtQuantile (f64 0.99999))) (f64 100000000.0) (f64 0.001))
  check (near (F64.ofNat (← raw.valueAtQuantile (f64 1.0))) (f64 100000000.0) (f64 0.001))
  check (near (F64.ofNat (← hist.valueAtQuantile (f64 0.3))) (f64 1000.0) (f64 0.001))
  check (near (F64.ofNat (← hist.valueAtQuantile (f64 0.5))) (f64 1000.0) (f64 0.001))
  check (near (F64.ofNat (← hist.valueAtQuantile (f64 0.75))) (f64 50000000.0) (f64 0.001))
  check (near (F64.ofNat (← hist.valueAtQuantile (f64 0.9))) (f64 80000000.0) (f64 0.001))
  check (near (F64.ofNat (← hist.valueAtQuantile (f64 0.99))) (f64 98000000.0) (f64 0.001))
  check (near (F64.ofNat (← hist.valueAtQuantile (f64 0.99999))) (f64 100000000.0) (f64 0.001))
  check (near (F64.ofNat (← hist.valueAtQuantile (f64 1.0))) (f64 100000000.0) (f64 0.001))

/-- tests/data_access.rs:214 -/
def largeQuantile : M Unit := do
  let largestValue : Nat := 1000000000000
  let mut h := (← unwrap (Hist.newWithMax fp .u64 largestValue 5))
  h ← h.addAssignValue largestValue
  check (decide ((← h.valueAtQuantile (f64 1.0)) > 0))
#guard passes largeQuantile

/-- tests/data_access.rs:222 -/
def quantileAtorbelow (l : Loaded) : M Unit := do
  let hist := l.hist
  let raw := l.raw
  check (near (f64 0.9999) (← raw.quantileBelow 5000) (f64 0.0001))
  check (near (f64 0.5) (← hist.quantileBelow 5000) (f64 0.0001))
  check (near (f64 1.0) (← hist.quantileBelow 100000000) (f64 0.0001))

/-- tests/data_access.rs:230 -/
def quantileBelowSaturates : M Unit := do
  let mut h := (← unwrap (Hist.newWithBounds fp .u64 1 U64MAX 3))
  for i in List.range' 0 (1024 - 0) do
    h ← okay (h.recordN i (U64MAX - 1))
  check (F64.feq (f64 1.0) (← h.quantileBelow 512))
#guard passes quantileBelowSaturates

/-- tests/data_access.rs:242 -/
def quantileBelowValueBeyondMax : M Unit := do
  let mut h := (← unwrap (Hist.newWithBounds fp .u64 1 100000 3))
  for i in List.range' 0 (1024 - 0) do
    h ← okay (h.record i)
  for _ in List.range' 0 (1024 - 0) do
    h ← okay (h.record 100000)
  check (F64.feq (f64 1.0) (← h.quantileBelow U64MAX))
#guard passes quantileBelowValueBeyondMax

/-- tests/data_access.rs:258 -/
def countBetween (l : Loaded) : M Unit := do
  let hist := l.hist
  let raw := l.raw
  check ((← raw.countBetween 1000 1000) == 10000)
  check ((← raw.countBetween 5000 150000000) == 1)
  check ((← hist.countBetween 5000 150000000) == 10000)

/-- tests/data_access.rs:266 -/
def countBetweenHighBeyondMax : M Unit := do
  let mut h := (← unwrap (Hist.newWithBounds fp .u64 1 100000 3))
  h ← okay (h.record ((1 <<< 17) - 1))
  check (1 == (← h.countBetween 50 300000))
#guard passes countBetweenHighBeyondMax

/-- tests/data_access.rs:275 -/
def countBetweenLowAndHighBeyondMax : M Unit := do
  let mut h := (← unwrap (Hist.newWithBounds fp .u64 1 100000 3))
  h ← okay (h.record ((1 <<< 17) - 1))
  check (1 == (← h.countBetween 200000 300000))
#guard passes countBetweenLowAndHighBeyondMax

/-- tests/data_access.rs:284 -/
def countBetweenSaturates : M Unit := do
  let mut h := (← unwrap (Hist.newWithBounds fp .u64 1 U64MAX 3))
  for i in List.range' 0 (1024 - 0) do
    h ← okay (h.recordN i (U64MAX - 1))
  check (U64MAX == (← h.countBetween 100 200))
#guard passes countBetweenSaturates

/-- tests/data_access.rs:295 -/
def countAt (l : Loaded) : M Unit := do
  let hist := l.hist
  let raw := l.raw
  check ((← raw.countBetween 10000 10010) == 0)
  check ((← hist.countBetween 10000 10010) == 1)
  check ((← raw.countAt 1000) == 10000)
  check ((← hist.countAt 1000) == 10000)

/-- tests/data_access.rs:304 -/
def countAtBeyondMaxValue : M Unit := do
  let mut h := (← unwrap (Hist.newWithBounds fp .u64 1 100000 3))
  h ← okay (h.record ((1 <<< 17) - 1))
  check (1 == (← h.countAt U64MAX))
#guard passes countAtBeyondMaxValue

/-- tests/data_access.rs:313 -/
def quantileIter (l : Loaded) : M Unit := do
  let hist := l.hist
  for v in (← hist.iterQuantiles lg 5 FUEL) do
    check (v.valueIteratedTo == (← hist.highestEquivalent (← hist.valueAtQuantile v.quantile)))

/-- tests/data_access.rs:324 -/
def linearIterRaw (l : Loaded) : M Unit := do
  let raw := l.raw
  let mut num : Nat := 0
  for (v, i) in (← raw.iterLinear 100000 FUEL).zipIdx do
    match i with
    | 0 =>
      check (v.countSinceLastIteration == 10000)
    | 999 =>
      check (v.countSinceLastIteration == 1)
    | _ =>
      check (v.countSinceLastIteration == 0)
    num := (num + 1)
  check (num == 1000)

/-- tests/data_access.rs:404 -/
def iterLog (l : Loaded) : M Unit := do
  let hist := l.hist
  let raw := l.raw
  let mut num : Nat := 0
  for (v, i) in (← raw.iterLog 10000 (f64 2.0) FUEL).zipIdx do
    match i with
    | 0 =>
      check (v.countSinceLastIteration == 10000)
    | 14 =>
      check (v.countSinceLastIteration == 1)
    | _ =>
      check (v.countSinceLastIteration == 0)
    num := (num + 1)
  check ((num - 1) == 14)
  num := 0
  let mut totalAddedCounts : Nat := 0
  for (v, i) in (← hist.iterLog 10000 (f64 2.0) FUEL).zipIdx do
    if (i == 0) then
      check (v.countSinceLastIteration == 10000)
    totalAddedCounts := (totalAddedCounts + v.countSinceLastIteration)
    num := (num + 1)
  check ((num - 1) == 14)
  check (totalAddedCounts == 20000)

/-- tests/data_access.rs:437 -/
def iterRecorded (l : Loaded) : M Unit := do
  let hist := l.hist
  let raw := l.raw
  let mut num : Nat := 0
  for (v, i) in (← raw.iterRecorded FUEL).zipIdx do
    match i with
    | 0 =>
      check (v.countSinceLastIteration == 10000)
    | _ =>
      check (v.countSinceLastIteration == 1)
    num := (num + 1)
  check (num == 2)
  num := 0
  let mut totalAddedCounts : Nat := 0
  for (v, i) in (← hist.iterRecorded FUEL).zipIdx do
    if (i == 0) then
      check (v.countSinceLastIteration == 10000)
    check (v.countAtValue != 0)
    check (v.countAtValue == v.countSinceLastIteration)
    totalAddedCounts := (totalAddedCounts + v.countSinceLastIteration)
    num := (num + 1)
  check (totalAddedCounts == 20000)

/-- tests/data_access.rs:473 -/
def iterAll (l : Loaded) : M Unit := do
  let hist := l.hist
  let raw := l.raw
  let mut num : Nat := 0
  for (v, i) in (← raw.iterAll FUEL).zipIdx do
    if (i == 1000) then
      check (v.countSinceLastIteration == 10000)
    else if (← hist.equivalent v.valueIteratedTo 100000000) then
      check (v.countSinceLastIteration == 1)
    else
      check (v.countSinceLastIteration == 0)
    num := (num + 1)
  check (num == hist.distinctValues)
  num := 0
  let mut totalAddedCounts : Nat := 0
  for (v, i) in (← hist.iterAll FUEL).zipIdx do
    if (i == 1000) then
      check (v.countSinceLastIteration == 10000)
    check (v.countAtValue == v.countSinceLastIteration)
    totalAddedCounts := (totalAddedCounts + v.countSinceLastIteration)
    num := (num + 1)
  check (num == hist.distinctValues)
  check (totalAddedCounts == 20000)

/-- tests/data_access.rs:512 -/
def linearIterSteps : M Unit := do
  let mut histogram := (← unwrap (Hist.new fp .u64 2))
  histogram ← histogram.addAssignValue 193
  histogram ← histogram.addAssignValue 0
  histogram ← histogram.addAssignValue 1
  histogram ← histogram.addAssignValue 64
  histogram ← histogram.addAssignValue 128
  check ((← histogram.iterLinear 64 FUEL).length == 4)
#guard passes linearIterSteps

/-- tests/data_access.rs:551 -/
def totalCountExceedsBucketType : M Unit := do
  let mut h := (← unwrap (Hist.new fp .u8 3))
  for _ in List.range' 0 (200 - 0) do
    h ← okay (h.record 100)
  for _ in List.range' 0 (200 - 0) do
    h ← okay (h.record 100000)
  check (400 == h.len)
#guard passes totalCountExceedsBucketType

/-- `x.powi(2)` -/
def sq (x : F64) : F64 := F64.mul x x

/-- tests/data_access.rs:168 -/
def getStdev (l : Loaded) : M Unit := do
  let expectedRawMean := F64.div (F64.add (F64.mul (f64 10000) (f64 1000)) (F64.mul (f64 1) (f64 100000000))) (f64 10001)
  let expectedRawStdDev := F64.sqrt (F64.div (F64.add (F64.mul (f64 10000) (sq (F64.sub (f64 1000) expectedRawMean)))
    (sq (F64.sub (f64 100000000) expectedRawMean))) (f64 10001))
  let expectedMean := F64.div (F64.add (f64 1000) (f64 50000000)) (f64 2)
  let mut sum := F64.mul (f64 10000) (sq (F64.sub (f64 1000) expectedMean))
  for i in List.range 10000 do
    sum := F64.add sum (sq (F64.sub (f64 (10000 * (i + 1))) expectedMean))
  let expectedStdDev := F64.sqrt (F64.div sum (f64 20000))
  check (near (← l.raw.stdev) expectedRawStdDev (f64 0.001))
  check (near (← l.hist.stdev) expectedStdDev (f64 0.001))

/-- tests/data_access.rs:523 -/
def valueDuplication (l : Loaded) : M Unit := do
  let vs ← l.hist.iterAll FUEL
  check (vs.length == l.hist.distinctValues)
  let mut h2 ← unwrap (Hist.newWithMax fp .u64 TRACKABLE_MAX SIGFIG)
  for v in vs do
    if 0 < v.countSinceLastIteration then
      h2 ← okay (h2.recordN v.valueIteratedTo v.countSinceLastIteration)
  check (← Hist.eq l.hist h2)

/-- the tests that begin with `load_histograms()` -/
def withLoaded : M Unit := do
  let l ← loadHistograms
  scalingEquivalence l
  totalCount l
  getMaxValue l
  getMinValue l
  getMean l
  quantiles l
  quantileAtorbelow l
  countBetween l
  countAt l
  quantileIter l
  linearIterRaw l
  iterLog l
  iterRecorded l
  iterAll l
  getStdev l
  valueDuplication l
#guard passes withLoaded

end Hdr.Check.DataAccess
