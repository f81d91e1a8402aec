import Verif.Model.Histogram
import Verif.Model.Varint

/-!
# Model of the V2 and V2+DEFLATE binary formats

`/repo/src/serialization/{mod,v2_serializer,v2_deflate_serializer,deserializer}.rs`.

The writer is an in-memory `Vec<u8>` (whose `write_all` never fails) and the reader is a byte slice;
`Model/Io` has arbitrary readers and writers, and the buffer a deserializer keeps between calls. Uninitialised scratch memory (`set_len` after
`reserve`) is an arbitrary function `junk`.
-/

namespace Hdr
namespace V2

variable {T : CounterTy}

/-- mod.rs:202-208 -/
def COOKIE_BASE : Nat := 0x1c849303
def COMPRESSED_COOKIE_BASE : Nat := 0x1c849304
def COOKIE : Nat := COOKIE_BASE ||| 0x10
def COMPRESSED_COOKIE : Nat := COMPRESSED_COOKIE_BASE ||| 0x10
def HEADER_SIZE : Nat := 40

/-- `V2SerializeError`, v2_serializer.rs:9-17 (`IoError` cannot happen on an in-memory writer) -/
inductive SerializeError where
  | CountNotSerializable | UsizeTypeTooSmall
  deriving DecidableEq, Repr

/-- `DeserializeError`, deserializer.rs:12-29; the payload of `IoError` is dropped -/
inductive DeserializeError where
  | IoError | InvalidCookie | UnsupportedFeature | UnsuitableCounterType | InvalidParameters
  | UsizeTypeTooSmall | EncodedArrayTooLong
  deriving DecidableEq, Repr

/-- big-endian bytes of an unsigned integer, `k` bytes -/
def beBytes : Nat → Nat → List UInt8
  | 0, _ => []
  | k + 1, x => asU8 (x / 256 ^ k) :: beBytes k x

/-- `write_u32::<BigEndian>` -/
def be32 (x : Nat) : List UInt8 := beBytes 4 x
/-- `write_u64::<BigEndian>` -/
def be64 (x : Nat) : List UInt8 := beBytes 8 x
/-- the bits of the `f64` `1.0` -/
def ONE_BITS : Nat := 0x3FF0000000000000

/-! ## Serializer -/

/-- `max_encoded_size`, v2_serializer.rs:117-121; `counts_array_max_encoded_size`, 124-130:
`None` is overflow of `usize` -/
def maxEncodedSize (h : Hist T) : M (Option Nat) := do
  let mx ← h.max
  match ← h.indexFor mx with
  | none => pure none
  | some i =>
    let n ← addU64 i 1
    pure (if n * 9 ≤ U64MAX then (if n * 9 + HEADER_SIZE ≤ U64MAX then some (n * 9 + HEADER_SIZE) else none)
      else none)

/-- `*h.counts.get_unchecked(index)`, v2_serializer.rs:149,159: out of bounds is undefined behaviour -/
def getUnchecked (h : Hist T) (index : Nat) : M Nat :=
  match h.counts[index]? with
  | some c => .ok c
  | none => .error .oob

/-- the inner `while` of `encode_counts`, v2_serializer.rs:159-164: the new `index` and `zero_count`
(`zero_count` is an `i64`, at most the number of slots, so it is a natural here) -/
def zeroRun (h : Hist T) (limit : Nat) : Nat → Nat → Nat → M (Nat × Nat)
  | 0, _, _ => .error .fuel
  | fuel + 1, index, zc =>
    if index ≤ limit then do
      let c ← getUnchecked h index
      if c = 0 then zeroRun h limit fuel (index + 1) (zc + 1) else pure (index, zc)
    else pure (index, zc)

/-- `count.to_i64()` -/
def toI64 (c : Nat) : Option Int := if c ≤ 9223372036854775807 then some (c : Int) else none

/-- `varint_write(zz, &mut buf[bytes_written..])`: slicing past the end panics -/
def varintWriteAt (zz : Nat) (buf : List UInt8) (at_ : Nat) : M (List UInt8 × Nat) := do
  if at_ ≤ buf.length then
    let (b, n) ← varintWrite zz (buf.drop at_)
    pure (buf.take at_ ++ b, n)
  else .error .index

/-- one iteration of the outer loop of `encode_counts` up to the number to be written,
v2_serializer.rs:148-182: the new `index` and `count_or_zeros` -/
def encodeStep (h : Hist T) (limit index : Nat) : M (Nat × Except SerializeError Int) := do
  let count ← getUnchecked h index
  if count = 0 then
    let (index, zc) ← zeroRun h limit (h.counts.length + 2) (index + 1) 1
    if 1 < zc then pure (index, .ok (-(zc : Int)))
    else pure (index, match toI64 count with | some c => .ok c | none => .error .CountNotSerializable)
  else
    pure (index + 1, match toI64 count with | some c => .ok c | none => .error .CountNotSerializable)

/-- the outer loop of `encode_counts`, v2_serializer.rs:147-188 -/
def encodeLoop (h : Hist T) (limit : Nat) :
    Nat → Nat → List UInt8 → Nat → M (Except SerializeError (List UInt8 × Nat))
  | 0, _, _, _ => .error .fuel
  | fuel + 1, index, buf, written =>
    if index ≤ limit then do
      match ← encodeStep h limit index with
      | (_, .error e) => pure (.error e)
      | (index, .ok n) =>
        let (buf, k) ← varintWriteAt (zigZagEncode n) buf written
        let written ← addU64 written k
        encodeLoop h limit fuel index buf written
    else pure (.ok (buf, written))

/-- `encode_counts`, v2_serializer.rs:135-190: the new buffer contents and the number of bytes -/
def encodeCounts (h : Hist T) (buf : List UInt8) : M (Except SerializeError (List UInt8 × Nat)) := do
  let mx ← h.max
  let limit ← expectM (← h.indexFor mx)
  assertM (decide (limit ≤ h.counts.length))
  encodeLoop h limit (h.counts.length + 2) 0 buf 0

/-- the header with a zero length field, v2_serializer.rs:81-92 -/
def header (h : Hist T) : List UInt8 :=
  be32 COOKIE ++ be32 0 ++ be32 0 ++ be32 h.sigDigits ++ be64 h.lowestDiscernible
    ++ be64 h.highestTrackable ++ be64 ONE_BITS

/-- `V2Serializer::serialize`, v2_serializer.rs:70-114: the bytes appended to the writer and the
returned length -/
def serialize (junk : Nat → UInt8) (h : Hist T) : M (Except SerializeError (List UInt8 × Nat)) := do
  match ← maxEncodedSize h with
  | none => pure (.error .UsizeTypeTooSmall)
  | some maxSize =>
    let hdr := header h
    assertM (decide (HEADER_SIZE = hdr.length))
    let tail := (List.range (maxSize - HEADER_SIZE)).map junk
    match ← encodeCounts h tail with
    | .error e => pure (.error e)
    | .ok (tail, countsLen) =>
      let totalLen ← addU64 HEADER_SIZE countsLen
      let hdr := hdr.take 4 ++ be32 (countsLen % 2 ^ 32) ++ hdr.drop 8
      let buf := hdr ++ tail
      -- `&self.buf[0..total_len]` panics if too short
      if totalLen ≤ buf.length then pure (.ok (buf.take totalLen, totalLen)) else .error .index

/-! ## Deserializer -/

/-- `read_exact` of `n` bytes -/
def readN (n : Nat) (r : List UInt8) : Option (List UInt8 × List UInt8) :=
  if n ≤ r.length then some (r.take n, r.drop n) else none

/-- value of big-endian bytes -/
def beVal (bs : List UInt8) : Nat := bs.foldl (fun acc b => acc * 256 + b.toNat) 0

/-- `read_u32::<BigEndian>` / `read_u64::<BigEndian>` (`n` bytes) -/
def readBE (n : Nat) (r : List UInt8) : Option (Nat × List UInt8) :=
  (readN n r).map fun p => (beVal p.1, p.2)

/-- `DecodeLoopState`, deserializer.rs:324-327, with the two values it is passed -/
structure DecodeState (T : CounterTy) where
  destIndex : Nat
  restat : Hist.RestatState
  h : Hist T

/-- `-x` on `i64`: `i64::MIN` panics with overflow checks on and wraps to itself with them off -/
def negI64 (checks : Bool) (x : Int) : M Int :=
  if x = -9223372036854775808 then (if checks then .error .overflow else .ok x) else .ok (-x)

/-- `set_count_at_index`, lib.rs:1562-1566 -/
def setCountAtIndex (h : Hist T) (index count : Nat) : Option (Hist T) :=
  if index < h.counts.length then some { h with counts := h.counts.set index count } else none

/-- `dest_index.checked_add(n)`, deserializer.rs:351-354, 366-369 -/
def advance (s : DecodeState T) (n : Nat) : Except DeserializeError (DecodeState T) :=
  if s.destIndex + n ≤ U64MAX then .ok { s with destIndex := s.destIndex + n }
  else .error .UsizeTypeTooSmall

/-- the non-negative half of `on_decoded_num`, deserializer.rs:356-369 -/
def onCount (s : DecodeState T) (n : Int) : Except DeserializeError (DecodeState T) :=
  -- `T::from_i64`
  if n ≤ (T.max : Int) then
    if 0 < n then
      match setCountAtIndex s.h s.destIndex n.toNat with
      | none => .error .EncodedArrayTooLong
      | some h => advance { s with h := h, restat := s.restat.onNonzeroCount s.destIndex n.toNat } 1
    else advance s 1
  else .error .UnsuitableCounterType

/-- `on_decoded_num`, deserializer.rs:338-373. `checks`: are arithmetic overflow checks compiled in? -/
def onDecodedNum (checks : Bool) (s : DecodeState T) (n : Int) :
    M (Except DeserializeError (DecodeState T)) := do
  if n < 0 then
    let z ← negI64 checks n
    match toUsize z with
    | none => pure (.error .UsizeTypeTooSmall)
    | some k => pure (advance s k)
  else pure (onCount s n)

/-- the fast loop, deserializer.rs:175-189: the payload position and state it ends with -/
def fastLoop (checks : Bool) (payload : List UInt8) :
    Nat → Nat → DecodeState T → M (Except DeserializeError (Nat × DecodeState T))
  | 0, _, _ => .error .fuel
  | fuel + 1, i, s =>
    if i < payload.length - 9 then do
      let (zz, n) ← varintReadSlice ((payload.drop i).take 9)
      match ← onDecodedNum checks s (zigZagDecode zz) with
      | .error e => pure (.error e)
      | .ok s => fastLoop checks payload fuel (i + n) s
    else pure (.ok (i, s))

/-- the leftover loop, deserializer.rs:192-198, on what is left of the cursor -/
def slowLoop (checks : Bool) :
    Nat → List UInt8 → DecodeState T → M (Except DeserializeError (DecodeState T))
  | 0, _, _ => .error .fuel
  | fuel + 1, r, s =>
    if r = [] then pure (.ok s)
    else
      match varintRead r with
      | none => pure (.error .IoError)
      | some (zz, r) => do
        match ← onDecodedNum checks s (zigZagDecode zz) with
        | .error e => pure (.error e)
        | .ok s => slowLoop checks fuel r s

/-- the decoding of the payload, deserializer.rs:168-202 -/
def decodePayload (checks : Bool) (h : Hist T) (payload : List UInt8) :
    M (Except DeserializeError (Hist T)) := do
  match ← fastLoop checks payload (payload.length + 1) 0 ⟨0, Hist.RestatState.new, h⟩ with
  | .error e => pure (.error e)
  | .ok (i, s) =>
    match ← slowLoop checks (payload.length + 1) (payload.drop i) s with
    | .error e => pure (.error e)
    | .ok s => do
      let h ← s.restat.updateHistogram s.h
      pure (.ok h)

/-- the header fields read by `deser_v2`, deserializer.rs:141-159 -/
structure Header where
  payloadLen : Nat
  digits : Nat
  low : Nat
  high : Nat
  rest : List UInt8

/-- the header part of `deser_v2`, deserializer.rs:141-159; the checks happen in this order, each
before the next field is read -/
def readHeader (r : List UInt8) : Except DeserializeError Header :=
  match readBE 4 r with
  | none => .error .IoError
  | some (payloadLen, r) =>
  match readBE 4 r with
  | none => .error .IoError
  | some (offset, r) =>
  if offset ≠ 0 then .error .UnsupportedFeature else
  match readBE 4 r with
  | none => .error .IoError
  | some (digits, r) =>
  if 255 < digits then .error .InvalidParameters else
  match readBE 8 r with
  | none => .error .IoError
  | some (low, r) =>
  match readBE 8 r with
  | none => .error .IoError
  | some (high, r) =>
  match readBE 8 r with
  | none => .error .IoError
  | some (ratio, r) =>
  -- only one bit pattern compares equal to `1.0`
  if ratio ≠ ONE_BITS then .error .UnsupportedFeature else
  .ok ⟨payloadLen, digits, low, high, r⟩

/-- `deser_v2`, deserializer.rs:137-200: the histogram and the unread rest -/
def deserV2 (fp : Fp) (T : CounterTy) (checks : Bool) (r : List UInt8) :
    M (Except DeserializeError (Hist T × List UInt8)) := do
  match readHeader r with
  | .error e => pure (.error e)
  | .ok hd =>
    match ← Hist.newWithBounds fp T hd.low hd.high hd.digits with
    | .error _ => pure (.error .InvalidParameters)
    | .ok h =>
      match readN hd.payloadLen hd.rest with
      | none => pure (.error .IoError)
      | some (payload, rest) =>
        match ← decodePayload checks h payload with
        | .error e => pure (.error e)
        | .ok h => pure (.ok (h, rest))

/-- The zlib implementation (`flate2`), a parameter. `inflate bs` is the sequence of bytes the decoder
delivers from compressed input `bs` before end of stream or an error; `unread bs` is how many bytes of
the length-limited input it leaves unconsumed. -/
structure Zlib where
  deflate : List UInt8 → List UInt8
  inflate : List UInt8 → List UInt8
  unread : List UInt8 → Nat

/-- `deser_v2_compressed`, deserializer.rs:117-134. `reader.take(n)` on a shorter stream ends early. -/
def deserV2Compressed (fp : Fp) (z : Zlib) (T : CounterTy) (checks : Bool) (r : List UInt8) :
    M (Except DeserializeError (Hist T × List UInt8)) := do
  match readBE 4 r with
  | none => pure (.error .IoError)
  | some (payloadLen, r) =>
    let compressed := r.take payloadLen
    match readBE 4 (z.inflate compressed) with
    | none => pure (.error .IoError)
    | some (cookie, inner) =>
      if cookie ≠ COOKIE then pure (.error .InvalidCookie)
      else
        match ← deserV2 fp T checks inner with
        | .error e => pure (.error e)
        | .ok (h, _) => pure (.ok (h, r.drop (compressed.length - z.unread compressed)))

/-- `Deserializer::deserialize`, deserializer.rs:104-115 -/
def deserialize (fp : Fp) (z : Zlib) (T : CounterTy) (checks : Bool) (r : List UInt8) :
    M (Except DeserializeError (Hist T × List UInt8)) :=
  match readBE 4 r with
  | none => pure (.error .IoError)
  | some (cookie, r) =>
    if cookie = COOKIE then deserV2 fp T checks r
    else if cookie = COMPRESSED_COOKIE then deserV2Compressed fp z T checks r
    else pure (.error .InvalidCookie)

/-- `V2DeflateSerializer::serialize`, v2_deflate_serializer.rs:78-132: bytes and returned length -/
def serializeDeflate (z : Zlib) (junk : Nat → UInt8) (h : Hist T) :
    M (Except SerializeError (List UInt8 × Nat)) := do
  match ← serialize junk h with
  | .error e => pure (.error e)
  | .ok (raw, rawLen) =>
    assertM (decide (raw.length = rawLen))
    let comp := be32 COMPRESSED_COOKIE ++ be32 0 ++ z.deflate (raw.take rawLen)
    let len ← subU (comp.length % 2 ^ 32) 8
    let buf := comp.take 4 ++ be32 len ++ comp.drop 8
    pure (.ok (buf, comp.length))

end V2
end Hdr
