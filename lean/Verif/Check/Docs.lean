import Verif.Check.Prelude
import Verif.Check.Serialization
import Verif.Check.IntervalLog

/-!
# The examples in the documentation: src/lib.rs, src/serialization/mod.rs, src/serialization/interval_log/mod.rs

Transcribed by hand, as described in Verif/Check/Prelude.lean.
Not transcribed: the examples that only print, and the sketch for `serde`.
-/

namespace Hdr.Check.Docs

/-- `IterationValue::new`, with the two quantiles equal to `quantile_below` of the value -/
def below (h : Hist .u64) (value countAt countSince : Nat) : M IterValue := do
  let q ← h.quantileBelow value
  pure ⟨value, q, q, countAt, countSince⟩

/-- lib.rs:71 -/
def recording : M Unit := do
  let h ← unwrap (Hist.newWithBounds fp .u64 1 (60 * 60 * 1000) 2)
  let h ← okay (h.record 54321)
  let h ← h.addAssignValue 54321
  let _ ← okay (h.recordCorrect 54321 10)
#guard passes recording

/-- lib.rs:1001 -/
def iterQuantiles : M Unit := do
  let mut h ← unwrap (Hist.newWithMax fp .u64 10000 4)
  for i in List.range 10000 do
    h ← h.addAssignValue i
  let items ← h.iterQuantiles lg 1 FUEL
  let expected : List (ℚ × ℚ × Nat × Nat) := [(0.0001, 0, 1, 1), (0.5, 0.5, 1, 5000 - 1), (0.75, 0.75, 1, 2500),
    (0.875, 0.875, 1, 1250), (0.9375, 0.9375, 1, 625), (0.9688, 0.96875, 1, 313)]
  check ((items.take 6) = (← expected.mapM fun e => do
    pure ⟨← h.valueAtQuantile (f64 e.1), f64 e.1, f64 e.2.1, e.2.2.1, e.2.2.2⟩))
#guard passes iterQuantiles

/-- the histogram of lib.rs:1062-1066, 1120-1124 and 1158-1162 -/
def four : M (Hist .u64) := do
  let h ← unwrap (Hist.newWithMax fp .u64 1000 3)
  let h ← h.addAssignValue 100
  let h ← h.addAssignValue 500
  let h ← h.addAssignValue 800
  h.addAssignValue 850

/-- lib.rs:1059 -/
def iterLinear : M Unit := do
  let h ← four
  check ((← h.iterLinear 100 FUEL) = [← below h 99 0 0, ← below h 199 0 1, ← below h 299 0 0, ← below h 399 0 0,
    ← below h 499 0 0, ← below h 599 0 1, ← below h 699 0 0, ← below h 799 0 0, ← below h 899 0 2])
#guard passes iterLinear

/-- lib.rs:1117 -/
def iterLog : M Unit := do
  let h ← four
  check ((← h.iterLog 1 (f64 10) FUEL) = [← below h 0 0 0, ← below h 9 0 0, ← below h 99 0 0, ← below h 999 0 4])
#guard passes iterLog

/-- lib.rs:1155 -/
def iterRecorded : M Unit := do
  let h ← four
  check ((← h.iterRecorded FUEL) = [← below h 100 1 1, ← below h 500 1 1, ← below h 800 1 1, ← below h 850 1 1])
#guard passes iterRecorded

/-- lib.rs:1194 -/
def iterAll : M Unit := do
  let h ← unwrap (Hist.newWithMax fp .u64 10 1)
  let h ← h.addAssignValue 1
  let h ← h.addAssignValue 5
  let h ← h.addAssignValue 8
  check (((← h.iterAll FUEL).take 11) = [⟨0, f64 0, f64 0, 0, 0⟩, ← below h 1 1 1, ← below h 2 0 0, ← below h 3 0 0,
    ← below h 4 0 0, ← below h 5 1 1, ← below h 6 0 0, ← below h 7 0 0, ← below h 8 1 1, ← below h 9 0 0,
    ⟨10, f64 1, f64 1, 0, 0⟩])
#guard passes iterAll

/-- serialization/mod.rs:118 -/
def serializeOne : M Unit := do
  let orig ← unwrap (Hist.new fp .u64 1)
  let (b, _) ← unwrap (V2.serialize Serialization.junk orig)
  let _ ← Serialization.deser Serialization.noZlib .u64 b
#guard passes serializeOne

/-- serialization/mod.rs:133 -/
def serializeSeveral : M Unit := do
  let mut buf : List UInt8 := []
  for _ in List.range 4 do
    let h ← histo64 1 U64MAX 3
    let h ← okay (h.recordN 42 7)
    let (b, _) ← unwrap (V2.serialize Serialization.junk h)
    buf := buf ++ b
  let mut accumulator ← histo64 1 U64MAX 3
  for _ in List.range 4 do
    let (h, rest) ← unwrap (V2.deserialize fp Serialization.noZlib .u64 true buf)
    buf := rest
    check ((← h.countAt 42) = 7)
    check ((← h.countAt 1000) = 0)
    accumulator ← okay (accumulator.add h)
  check ((← accumulator.countAt 42) = 4 * 7)
#guard passes serializeSeveral

open IntervalLog Hdr.Log

/-- serialization/interval_log/mod.rs:122 -/
def parseOne : M Unit := do
  match ← entries (text "#I'm a comment\nTag=t,0.127,1.007,2.769,base64EncodedHisto\n") with
  | [.ok (.interval i)] => check (i.start = ⟨0, 127000000⟩)
  | _ => check false
#guard passes parseOne

/-- serialization/interval_log/mod.rs:145 -/
def skipEarly : M Unit := do
  let es ← entries (text ("#I'm a comment\nTag=a,0.123,1.007,2.769,base64EncodedHisto\n"
    ++ "1.456,1.007,2.769,base64EncodedHisto\n3.789,1.007,2.769,base64EncodedHisto\n"
    ++ "Tag=b,4.123,1.007,2.769,base64EncodedHisto\n5.456,1.007,2.769,base64EncodedHisto\n#Another comment\n"))
  let starts := es.filterMap fun
    | .ok (.interval i) => some i.start
    | _ => none
  check ((starts.filter fun d => 3 ≤ d.secs).length = 3)
#guard passes skipEarly

/-- serialization/interval_log/mod.rs:175, with the clock at 1500000000 s and 20 ms passing before the interval -/
def writeOne : M Unit := do
  let h ← histo64 1 U64MAX 3
  let h ← okay (h.record 12345)
  let l ← unwrap (writeLog Fmt.halfUp ((Builder.new.addComment "Comments are great".toList).withStartTime (after 1500000000 0))
    ser [.comment "You can have comments anywhere in the log".toList,
      .hist h ⟨0, 20000000⟩ ⟨12, 345678901⟩ (Tag.new "im-a-tag".toList)])
  check (l.take 20 = text "#Comments are great\n")
#guard passes writeOne

-- serialization/interval_log/mod.rs:355
#guard writeLog Fmt.halfUp Builder.new ser [.comment "Comment 2".toList] = .ok (.ok (text "#Comment 2\n"))

end Hdr.Check.Docs
