import Verif.Model.Machine

/-!
# Model of the variable-length integer and zig-zag coding

`/repo/src/serialization/v2_serializer.rs` (writer) and `/repo/src/serialization/deserializer.rs`
(readers). Bytes are `UInt8`; `u64` values are naturals.
-/

namespace Hdr

/-- `x as u8` for an unsigned `x` -/
def asU8 (x : Nat) : UInt8 := UInt8.ofNat x

/-- `buf[i] = b` on a slice: panics if out of bounds. -/
def setB (buf : List UInt8) (i : Nat) (b : UInt8) : M (List UInt8) :=
  if i < buf.length then .ok (buf.set i b) else .error .index

/-- `buf[i]` on a slice: panics if out of bounds. -/
def getB (buf : List UInt8) (i : Nat) : M UInt8 :=
  match buf[i]? with
  | some b => .ok b
  | none => .error .index

namespace V2

/-- `shift_by_7s`, v2_serializer.rs:256-258 (`n ≤ 8`, so the shift is below 64) -/
def shiftBy7s (input n : Nat) : Nat := input >>> (7 * n)

/-- `nth_7b_chunk_with_high_bit`, v2_serializer.rs:265-267 -/
def nth7bChunkWithHighBit (input n : Nat) : UInt8 := asU8 (shiftBy7s input n) ||| 0x80

/-- `varint_write`, v2_serializer.rs:199-250: the new contents of the slice and the number of bytes
written. -/
def varintWrite (input : Nat) (buf : List UInt8) : M (List UInt8 × Nat) := do
  if shiftBy7s input 1 = 0 then
    let buf ← setB buf 0 (asU8 input)
    return (buf, 1)
  let buf ← setB buf 0 (0x80 ||| asU8 (input &&& 0x7F))
  if shiftBy7s input 2 = 0 then
    let buf ← setB buf 1 (asU8 (shiftBy7s input 1))
    return (buf, 2)
  let buf ← setB buf 1 (nth7bChunkWithHighBit input 1)
  if shiftBy7s input 3 = 0 then
    let buf ← setB buf 2 (asU8 (shiftBy7s input 2))
    return (buf, 3)
  let buf ← setB buf 2 (nth7bChunkWithHighBit input 2)
  if shiftBy7s input 4 = 0 then
    let buf ← setB buf 3 (asU8 (shiftBy7s input 3))
    return (buf, 4)
  let buf ← setB buf 3 (nth7bChunkWithHighBit input 3)
  if shiftBy7s input 5 = 0 then
    let buf ← setB buf 4 (asU8 (shiftBy7s input 4))
    return (buf, 5)
  let buf ← setB buf 4 (nth7bChunkWithHighBit input 4)
  if shiftBy7s input 6 = 0 then
    let buf ← setB buf 5 (asU8 (shiftBy7s input 5))
    return (buf, 6)
  let buf ← setB buf 5 (nth7bChunkWithHighBit input 5)
  if shiftBy7s input 7 = 0 then
    let buf ← setB buf 6 (asU8 (shiftBy7s input 6))
    return (buf, 7)
  let buf ← setB buf 6 (nth7bChunkWithHighBit input 6)
  if shiftBy7s input 8 = 0 then
    let buf ← setB buf 7 (asU8 (shiftBy7s input 7))
    return (buf, 8)
  let buf ← setB buf 7 (nth7bChunkWithHighBit input 7)
  let buf ← setB buf 8 (asU8 (input >>> 56))
  return (buf, 9)

/-- `low_7_bits`, deserializer.rs:307-309 -/
def low7Bits (b : UInt8) : Nat := (b &&& 0x7F).toNat

/-- `is_high_bit_set`, deserializer.rs:312-314 -/
def isHighBitSet (b : UInt8) : Bool := (b &&& 0x80) != 0

/-- `varint_read_slice`, deserializer.rs:207-257: the number and how many bytes it took -/
def varintReadSlice (slice : List UInt8) : M (Nat × Nat) := do
  let b ← getB slice 0
  let value := low7Bits b
  if !isHighBitSet b then return (value, 1)
  let b ← getB slice 1
  let value := value ||| (low7Bits b <<< 7)
  if !isHighBitSet b then return (value, 2)
  let b ← getB slice 2
  let value := value ||| (low7Bits b <<< (7 * 2))
  if !isHighBitSet b then return (value, 3)
  let b ← getB slice 3
  let value := value ||| (low7Bits b <<< (7 * 3))
  if !isHighBitSet b then return (value, 4)
  let b ← getB slice 4
  let value := value ||| (low7Bits b <<< (7 * 4))
  if !isHighBitSet b then return (value, 5)
  let b ← getB slice 5
  let value := value ||| (low7Bits b <<< (7 * 5))
  if !isHighBitSet b then return (value, 6)
  let b ← getB slice 6
  let value := value ||| (low7Bits b <<< (7 * 6))
  if !isHighBitSet b then return (value, 7)
  let b ← getB slice 7
  let value := value ||| (low7Bits b <<< (7 * 7))
  if !isHighBitSet b then return (value, 8)
  let b ← getB slice 8
  let value := value ||| (b.toNat <<< (7 * 8))
  return (value, 9)

/-- `read_u8` on an in-memory reader: the byte and the rest, or `UnexpectedEof` -/
def readU8 : List UInt8 → Option (UInt8 × List UInt8)
  | [] => none
  | b :: rest => some (b, rest)

/-- `varint_read`, deserializer.rs:261-303: the number and the rest of the stream; `none` is the i/o
error of reading past the end. -/
def varintRead (r : List UInt8) : Option (Nat × List UInt8) := do
  let (b, r) ← readU8 r
  let value := low7Bits b
  if isHighBitSet b then
    let (b, r) ← readU8 r
    let value := value ||| (low7Bits b <<< 7)
    if isHighBitSet b then
      let (b, r) ← readU8 r
      let value := value ||| (low7Bits b <<< (7 * 2))
      if isHighBitSet b then
        let (b, r) ← readU8 r
        let value := value ||| (low7Bits b <<< (7 * 3))
        if isHighBitSet b then
          let (b, r) ← readU8 r
          let value := value ||| (low7Bits b <<< (7 * 4))
          if isHighBitSet b then
            let (b, r) ← readU8 r
            let value := value ||| (low7Bits b <<< (7 * 5))
            if isHighBitSet b then
              let (b, r) ← readU8 r
              let value := value ||| (low7Bits b <<< (7 * 6))
              if isHighBitSet b then
                let (b, r) ← readU8 r
                let value := value ||| (low7Bits b <<< (7 * 7))
                if isHighBitSet b then
                  let (b, r) ← readU8 r
                  let value := value ||| (b.toNat <<< (7 * 8))
                  some (value, r)
                else some (value, r)
              else some (value, r)
            else some (value, r)
          else some (value, r)
        else some (value, r)
      else some (value, r)
    else some (value, r)
  else some (value, r)

/-- `zig_zag_encode`, v2_serializer.rs:272-275, on the 64-bit pattern of `num`
(`num >> 63` is the arithmetic shift of `i64`). -/
def zigZagEncode (num : Int) : Nat :=
  let n := BitVec.ofInt 64 num
  ((n <<< 1) ^^^ (n.sshiftRight 63)).toNat

/-- `zig_zag_decode`, deserializer.rs:318-320 -/
def zigZagDecode (encoded : Nat) : Int :=
  let e := BitVec.ofNat 64 encoded
  ((e >>> 1) ^^^ (-(e &&& 1#64))).toInt

end V2
end Hdr
