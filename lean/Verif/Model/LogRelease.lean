import Verif.Model.Release
import Verif.Model.Cli

/-!
# The interval log and the command line tool in a release build

The functions of `Model/IntervalLog.lean` and `Model/Cli.lean` that do arithmetic or call functions that do, compiled without
overflow checks and debug assertions; all others are those of these two modules.
-/

namespace Hdr
namespace Release

namespace Log

open Hdr.Log

variable {T : CounterTy} {ε : Type}

/-! ## Parsers, mod.rs 709-819 -/

/-- interval_log/mod.rs 791-798, the match on the number of digits; difference and power are `u32` and wrap -/
def nanosOf (nanosStr : Str) : M (Option Nat) :=
  if 9 < nanosStr.bytes.length then do
    let t ← strSlice 9 nanosStr
    .ok (parseUnsigned 4294967295 t)
  else if nanosStr.bytes.length = 9 then .ok (parseUnsigned 4294967295 nanosStr)
  else
    match parseUnsigned 4294967295 nanosStr with
    | none => .ok none
    | some n => do
      let e ← subU32 9 nanosStr.bytes.length
      let n ← mulU32 n (10 ^ e % 2 ^ 32)
      .ok (some n)

/-- interval_log/mod.rs 786-807 `fract_sec_duration` -/
def fractSecDuration (i : Bytes) : M (Option (Dur × Bytes)) :=
  match fractSecTuple i with
  | none => .ok none
  | some ((secs, nanosStr), rest) => do
    match ← nanosOf nanosStr with
    | some nanos => do
      let d ← Dur.new secs nanos
      .ok (some (d, rest))
    | none => .ok none

/-- interval_log/mod.rs 709-725 `start_time`, `base_time` -/
def headerTime (header : Str) (i : Bytes) : M (Option (Dur × Bytes)) :=
  match tagP header.bytes i with
  | none => .ok none
  | some i => do
    match ← fractSecDuration i with
    | none => .ok none
    | some (d, i) =>
      match headerEnd i with
      | none => .ok none
      | some i => .ok (some (d, i))

/-- `fract_sec_duration` followed by `char(',')` -/
def durComma (i : Bytes) : M (Option (Dur × Bytes)) := do
  match ← fractSecDuration i with
  | none => .ok none
  | some (d, i) =>
    match tagP [44] i with
    | none => .ok none
    | some i => .ok (some (d, i))

/-- interval_log/mod.rs 739-762 `interval_hist` -/
def intervalHist (D : Dbl) (i : Bytes) : M (Option (Interval × Bytes)) := do
  let (tag, i) := optTag i
  match ← durComma i with
  | none => .ok none
  | some (start, i) =>
    match ← durComma i with
    | none => .ok none
    | some (duration, i) =>
      match intervalEnd D i with
      | none => .ok none
      | some ((max, encoded), i) => .ok (some (⟨tag, start, duration, max, encoded⟩, i))

/-- interval_log/mod.rs 764-766 `log_entry` -/
def logEntry (D : Dbl) (i : Bytes) : M (Option (Entry × Bytes)) := do
  match ← headerTime startTimeTag i with
  | some (d, r) => .ok (some (.startTime d, r))
  | none =>
    match ← headerTime baseTimeTag i with
    | some (d, r) => .ok (some (.baseTime d, r))
    | none =>
      match ← intervalHist D i with
      | some (h, r) => .ok (some (.interval h, r))
      | none => .ok none

/-- interval_log/mod.rs 662-692, the loop of `next` -/
def nextLoop (D : Dbl) : Nat → Iter → M (Option (Except Nat Entry) × Iter)
  | 0, _ => .error .fuel
  | n + 1, it =>
    if it.ended then .ok (none, it)
    else if it.input = [] then .ok (none, { it with ended := true })
    else do
      match ← logEntry D it.input with
      | some (e, rest) => .ok (some (.ok e), { it with input := rest })
      | none =>
        match ignoredLine it.input with
        | some rest => nextLoop D n { it with input := rest }
        | none => do
          let offset ← subU64 it.origLen it.input.length
          .ok (some (.error offset), { it with ended := true })

/-- interval_log/mod.rs 661-693 `Iterator::next` -/
def next (D : Dbl) (it : Iter) : M (Option (Except Nat Entry) × Iter) := nextLoop D (it.input.length + 1) it

/-! ## The writer, mod.rs 462-498 -/

/-- interval_log/mod.rs 462-498 `InternalLogWriter::write_histogram` -/
def writeHistogram (f : Fmt) (divisor : F64) (ser : Hist T → M (Except ε Bytes)) (h : Hist T) (start duration : Dur)
    (tag : Option Tag) : M (Bytes × Except ε Unit) := do
  let max ← Hist.max h
  let head := Str.bytes (tagText tag ++ f.fixed3 (durationAsFpSeconds start) ++ [',']
    ++ f.fixed3 (durationAsFpSeconds duration) ++ [','] ++ f.fixed3 (F64.div (F64.ofNat max) divisor) ++ [','])
  match ← ser h with
  | .error e => .ok (head, .error e)
  | .ok buf => .ok (head ++ Str.bytes (b64Encode buf) ++ [10], .ok ())

/-- the bytes one call appends, and its result -/
def opRun (f : Fmt) (divisor : F64) (ser : Ser ε) : Op → M (Bytes × Except ε Unit)
  | .comment s => .ok (commentBytes s, .ok ())
  | .hist h start duration tag => writeHistogram f divisor ser h start duration tag

/-- a sequence of calls that all succeed: the bytes appended -/
def runOps (f : Fmt) (divisor : F64) (ser : Ser ε) : List Op → M (Except ε Bytes)
  | [] => .ok (.ok [])
  | op :: ops => do
    match ← opRun f divisor ser op with
    | (_, .error e) => .ok (.error e)
    | (b, .ok ()) =>
      match ← runOps f divisor ser ops with
      | .error e => .ok (.error e)
      | .ok bs => .ok (.ok (b ++ bs))

/-- `V2Serializer` as the serializer of a log -/
def v2Ser (junk : Nat → UInt8) : Ser V2.SerializeError := fun h => do
  match ← V2.serialize junk h with
  | .ok (b, _) => .ok (.ok b)
  | .error e => .ok (.error e)

/-- `V2DeflateSerializer` (v2_deflate_serializer.rs:78-131) as the serializer of a log -/
def deflateSer (z : V2.Zlib) (junk : Nat → UInt8) : Ser V2.SerializeError := fun h => do
  match ← V2.serializeDeflate z junk h with
  | .ok (b, _) => .ok (.ok b)
  | .error e => .ok (.error e)

/-- a whole log -/
def writeLog (f : Fmt) (b : Builder) (ser : Ser ε) (ops : List Op) : M (Except ε Bytes) := do
  match ← runOps f b.maxValueDivisor ser ops with
  | .error e => .ok (.error e)
  | .ok bs => .ok (.ok (b.beginBytes f ++ bs))

end Log

namespace Cli

open Hdr.Cli
open Hdr.Log (Bytes)

/-- examples/cli.rs:119-125: the loop over the lines -/
def recordLines (h : Hist .u64) : List Bytes → M (Hist .u64 × Except RecordError Unit)
  | [] => .ok (h, .ok ())
  | l :: ls => do
    let n ← number l
    match ← Hist.record h n with
    | (h, .error e) => .ok (h, .error e)
    | (h, .ok ()) => recordLines h ls

/-- examples/cli.rs:113-134 `serialize` -/
def serialize (z : V2.Zlib) (junk : Nat → UInt8) (h : Hist .u64) (compression : Bool) (input : Bytes) :
    M (Except CliError Bytes) := do
  match ← recordLines h (lines input) with
  | (_, .error e) => pure (.error (.HistogramRecord e))
  | (h, .ok ()) =>
    if compression then
      match ← V2.serializeDeflate z junk h with
      | .error e => pure (.error (.HistogramSerializeCompressed e))
      | .ok (bytes, _) => pure (.ok bytes)
    else
      match ← V2.serialize junk h with
      | .error e => pure (.error (.HistogramSerialize e))
      | .ok (bytes, _) => pure (.ok bytes)

/-- examples/cli.rs:84-97 -/
def serializeCmd (fp : Fp) (z : V2.Zlib) (junk : Nat → UInt8) (a : SerializeArgs) (input : Bytes) :
    M (Except CliError Bytes) := do
  match ← Hist.newWithBounds fp .u64 a.min a.max a.sigfig with
  | .error _ => .error .expect
  | .ok h => serialize z junk (if a.resize then h.auto true else h) a.compression input

/-- examples/cli.rs:158-190: the loop over the items, with their running sum -/
def rows : Nat → List IterValue → M (List Row)
  | _, [] => .ok []
  | sum, v :: vs => do
    let sum ← addU64 sum v.countSinceLastIteration
    let rest ← rows sum vs
    .ok (row v sum :: rest)

/-- examples/cli.rs:138-225 `quantiles` -/
def quantiles (fp : Fp) (z : V2.Zlib) (lg : F64 → Nat) (fuel : Nat) (ticks : Nat) (input : Bytes) :
    M (Except CliError Table) := do
  match ← V2.deserialize fp z .u64 false input with
  | .error e => pure (.error (.HistogramDeserialize e))
  | .ok (h, _) =>
    let items ← Hist.iterQuantiles lg h ticks fuel
    let rs ← rows 0 items
    let mean ← Hist.mean h
    let stdev ← Hist.stdev h
    let max ← Hist.max h
    pure (.ok { rows := rs, mean := mean, stdev := stdev, max := max, len := h.len, buckets := h.buckets
                distinctValues := h.distinctValues })

end Cli
end Release
end Hdr
