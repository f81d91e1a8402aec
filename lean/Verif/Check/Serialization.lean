import Verif.Check.Prelude
import Verif.Model.V2

/-!
# src/serialization/tests.rs, tests/serialization.rs

Transcribed by hand, as described in Verif/Check/Prelude.lean. The files tests/data/seq-nums.hist and seq-nums.histz,
which were written by the Java implementation, are repeated here; what zlib makes of the second was computed outside of
Lean. Instead of recording each of the numbers 0..99999 the transcription records each class of equivalent numbers at
once; the tests of recording are in other modules.
Not transcribed: the tests with random numbers; the literals of the zig-zag encoding are in Verif/Check/ZigZag.lean.
-/

namespace Hdr.Check.Serialization

open Hdr.V2

def junk (_ : Nat) : UInt8 := 170

/-- `Deserializer::new().deserialize(…).unwrap()` of everything -/
def deser (z : Zlib) (T : CounterTy) (b : List UInt8) : M (Hist T) := do
  let (h, rest) ← unwrap (V2.deserialize fp z T true b)
  check (rest = [])
  pure h

def noZlib : Zlib := ⟨id, fun _ => [], fun _ => 0⟩

/-- tests.rs:580 assert_deserialized_histogram_matches_orig -/
def matchesOrig {T : CounterTy} (o d : Hist T) : M Unit := do
  check (o.highestTrackable = d.highestTrackable)
  check (o.lowestDiscernible = d.lowestDiscernible)
  check (o.sigDigits = d.sigDigits)
  check (o.bucketCount = d.bucketCount)
  check (o.subBucketCount = d.subBucketCount)
  check (o.subBucketHalfCount = d.subBucketHalfCount)
  check (o.subBucketHalfCountMag = d.subBucketHalfCountMag)
  check (o.subBucketMask = d.subBucketMask)
  check (o.leadingZeroCountBase = d.leadingZeroCountBase)
  check (o.unitMag = d.unitMag)
  check (o.unitMagMask = d.unitMagMask)
  check ((← o.highestEquivalent o.maxValue) = d.maxValue)
  check (o.counts = d.counts)
  check (d.totalCount ≤ o.totalCount)
  check (d.totalCount = d.counts.foldl satAdd 0)

/-- tests.rs:25 serialize_all_zeros -/
def serializeAllZeros : M Unit := do
  let h ← histo64 1 2047 3
  let (b, n) ← unwrap (serialize junk h)
  check (n = HEADER_SIZE + 1)
  check (b = [0x1c, 0x84, 0x93, 0x13, 0, 0, 0, 1, 0, 0, 0, 0, 0, 0, 0, 3, 0, 0, 0, 0, 0, 0, 0, 1, 0, 0, 0, 0, 0, 0, 7, 255,
    0x3f, 0xf0, 0, 0, 0, 0, 0, 0, 0])
#guard passes serializeAllZeros

/-- tests.rs:51 serialize_roundtrip_all_zeros -/
def roundtripAllZeros : M Unit := do
  let h ← histo64 1 2047 3
  let (b, n) ← unwrap (serialize junk h)
  check (n = HEADER_SIZE + 1)
  let d ← deser noZlib .u64 b
  matchesOrig h d
  check (d.minNonZero = U64MAX)
  check (h.totalCount = d.totalCount)
#guard passes roundtripAllZeros

/-- tests.rs:94 serialize_roundtrip_1_count_for_every_value_1_bucket,
tests.rs:118 serialize_roundtrip_1_count_for_every_value_2_buckets -/
def roundtripEveryValue (high buckets slots values len : Nat) : M Unit := do
  let mut h ← histo64 1 high 3
  check (h.bucketCount = buckets)
  check (h.subBucketHalfCountMag = 10)
  check (h.counts.length = slots)
  for v in List.range values do
    h ← okay (h.record v)
  let (b, n) ← unwrap (serialize junk h)
  check (n = HEADER_SIZE + len)
  let d ← deser noZlib .u64 b
  matchesOrig h d
  check ((← h.lowestEquivalent h.minNonZero) = d.minNonZero)
#guard passes (roundtripEveryValue 2047 1 2048 2048 2048)
#guard passes (roundtripEveryValue 4095 2 (2048 + 1024) 4095 (2048 + 1024))

/-- tests.rs:182 to 275: the encoded counts after `ops` -/
def encoded (high : Nat) (ops : List (Nat × Nat)) : M (Except SerializeError (List UInt8)) := do
  let mut h ← histo64 1 high 3
  for (v, n) in ops do
    h ← okay (h.recordN v n)
  match ← encodeCounts h (List.replicate (9 * h.counts.length) 0) with
  | .ok (b, n) => pure (.ok (b.take n))
  | .error e => pure (.error e)

/-- the zig-zag numbers in a list of bytes -/
def numbers : Nat → List UInt8 → Option (List Int)
  | _, [] => some []
  | 0, _ => none
  | k + 1, b => do
    let (v, r) ← varintRead b
    pure (zigZagDecode v :: (← numbers k r))

-- tests.rs:182 encode_counts_all_zeros, with a smaller histogram
#guard encoded 30000 [] = .ok (.ok [0])
-- tests.rs:198 encode_counts_last_count_incremented
#guard encoded 2047 [(2047, 1)] = .ok (.ok [0xFD, 0x1F, 2])
#guard numbers 9 [0xFD, 0x1F, 2] = some [-2047, 1]
-- tests.rs:222 encode_counts_first_count_incremented
#guard encoded 2047 [(0, 1)] = .ok (.ok [2])
-- tests.rs:245 encode_counts_first_and_last_count_incremented
#guard encoded 2047 [(0, 1), (2047, 1)] = .ok (.ok [2, 0xFB, 0x1F, 2])
#guard numbers 9 [2, 0xFB, 0x1F, 2] = some [1, -2046, 1]
-- tests.rs:275 encode_counts_count_too_big
#guard encoded 2047 [(0, 9223372036854775808)] = .ok (.error .CountNotSerializable)

/-- tests.rs:288 to 313: the bytes written for a number -/
def written (v : Nat) : M (List UInt8) := do
  let (b, n) ← varintWrite v (List.replicate 9 0)
  pure (b.take n)

-- tests.rs:288 varint_write_3_bit_value, varint_write_7_bit_value, varint_write_9_bit_value, varint_write_u64_max
#guard written 6 = .ok [6]
#guard written 127 = .ok [0x7F]
#guard written 256 = .ok [0x80, 0x02]
#guard written U64MAX = .ok (List.replicate 9 0xFF)
-- tests.rs:321 varint_read_u64_max, tests.rs:327 varint_read_u64_zero
#guard varintRead (List.replicate 9 0xFF) = some (U64MAX, [])
#guard varintRead (List.replicate 9 0) = some (0, List.replicate 8 0)

/-- tests/data/seq-nums.hist -/
def javaHist : List UInt8 :=
  [0x1c, 0x84, 0x93, 0x13, 0, 0, 0x20, 0x35, 0, 0, 0, 0, 0, 0, 0, 3, 0, 0, 0, 0, 0, 0, 0, 1,
   0x7f, 0xff, 0xff, 0xff, 0xff, 0xff, 0xff, 0xff, 0x3f, 0xf0, 0, 0, 0, 0, 0, 0]
  ++ List.replicate 2048 2 ++ List.replicate 1024 4 ++ List.replicate 1024 8 ++ List.replicate 1024 16
  ++ List.replicate 1024 32 ++ List.replicate 1024 64 ++ (List.replicate 538 [0x80, 0x01]).flatten ++ [64]

/-- tests/data/seq-nums.histz -/
def javaHistz : List UInt8 :=
  [28, 132, 147, 20, 0, 0, 0, 78, 120, 156, 237, 200, 161, 17, 128, 48, 20, 68, 193, 4, 16, 72, 102, 176, 136, 52, 129, 38,
   157, 129, 160, 3, 26, 165, 3, 16, 161, 0, 252, 223, 125, 226, 102, 110, 57, 175, 57, 165, 178, 166, 166, 255, 54, 239, 79,
   179, 221, 237, 232, 0, 128, 112, 6, 32, 172, 17, 8, 107, 2, 194, 42, 64, 88, 21, 8, 235, 200, 146, 244, 191, 250, 2, 223,
   216, 25, 206]

/-- what zlib makes of it -/
def javaZlib : Zlib := ⟨id, fun b => if b = javaHistz.drop 8 then javaHist else [], fun _ => 0⟩

/-- tests/serialization.rs:70 load_histogram_from_num_per_line: the numbers 0..99999, class by class -/
def loadNums : M (Hist .u64) := do
  let mut h ← histo64 1 (U64MAX / 2) 3
  let mut next := 0
  for _ in List.range 8000 do
    if next < 100000 then
      let last := Min.min (← h.highestEquivalent next) 99999
      -- the largest and the smallest number of the class, so that the extremes are those of the numbers
      h ← okay (h.recordN last (last - next))
      h ← okay (h.recordN next 1)
      next := last + 1
  check (next = 100000)
  pure h

/-- tests/serialization.rs:11 serialize_no_compression_matches_java_impl,
tests/serialization.rs:30 deserialize_no_compression_matches_java,
tests/serialization.rs:41 deserialize_compression_matches_java -/
def java : M Unit := do
  let h ← loadNums
  let (b, _) ← unwrap (serialize junk h)
  check (b = javaHist)
  check (← Hist.eq h (← deser javaZlib .u64 javaHist))
  check (← Hist.eq h (← deser javaZlib .u64 javaHistz))
#guard passes java

/-- tests/serialization.rs:52 total_count_overflow_from_deserialize_saturates -/
def totalCountSaturates : M Unit := do
  let h ← histo64 1 U64MAX 3
  let h ← okay (h.recordN 1 9223372036854775807)
  let h ← okay (h.recordN 1000 9223372036854775807)
  let h ← okay (h.recordN 1000000 9223372036854775807)
  check (h.len = U64MAX)
  let (b, _) ← unwrap (serialize junk h)
  let d ← deser noZlib .u64 b
  check (d.len = U64MAX)
#guard passes totalCountSaturates

end Hdr.Check.Serialization
