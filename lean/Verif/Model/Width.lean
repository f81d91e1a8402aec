import Verif.Model.V2

/-!
# Model of the crate on targets with a narrower `usize`

The rest of the model is for a 64-bit target, where no conversion to `usize` fails. Here the functions that convert to
`usize` or size a vector are modelled for any pointer width (lib.rs:137-150 promises "a suitable error" on 16-bit
targets and none on 32-bit ones). Line numbers refer to `/repo/src/lib.rs` unless another file is named.

Everything else in the crate computes with `u8`, `u32`, `i32` and `u64`, which do not depend on the target, or with
indexes of existing slots; those functions are taken from the other `Model` modules unchanged. The one other `usize`
operation whose result could depend on the width, the shift in `value_for`, is `valueForOn`.
-/

namespace Hdr

/-- A compilation target: the width of `usize` (16, 32 or 64 bits in Rust), and which vectors can be allocated. `Vec` refuses more than
`isize::MAX` bytes with a "capacity overflow" panic; how much less than that is available is up to the target (a
vector growing by doubling, an allocator running out of memory), so `allocates` is arbitrary below. -/
structure Target where
  bits : Nat
  bits_le : bits ≤ 64
  allocates : (elementSize len : Nat) → Bool
  isizeMax : ∀ size len, allocates size len = true → size * len ≤ (2 ^ bits - 1) / 2

namespace Target

/-- `usize::MAX` -/
def usizeMax (t : Target) : Nat := 2 ^ t.bits - 1

/-- a number that is not negative, converted with `to_usize` -/
def toUsize (t : Target) (x : Nat) : Option Nat := if x ≤ t.usizeMax then some x else none

/-- `usize + usize`, with overflow checks -/
def add (t : Target) (a b : Nat) : M Nat := if a + b ≤ t.usizeMax then .ok (a + b) else .error .overflow

/-- `Vec::resize` or `Vec::reserve` to `len` elements of `size` bytes from `old` elements: a vector that does not grow
allocates nothing -/
def grow (t : Target) (size old len : Nat) : M Unit :=
  if len ≤ old then .ok () else if t.allocates size len then .ok () else .error .capacity

end Target

/-- `size_of::<T>()` -/
def CounterTy.bytes : CounterTy → Nat
  | .u8 => 1
  | .u16 => 2
  | .u32 => 4
  | .u64 => 8

namespace Hist

variable {T : CounterTy}

/-- `index_for`, 358-383: the `i32` index converted with `to_usize` -/
def indexForOn (t : Target) (h : Hist T) (value : Nat) : M (Option Nat) := do
  match ← h.indexFor value with
  | none => pure none
  | some i => pure (t.toUsize i)

/-- `index_for_or_last`, 388-391 -/
def indexForOrLastOn (t : Target) (h : Hist T) (value : Nat) : M Nat := do
  let oi ← h.indexForOn t value
  let last ← h.lastIndex
  pure (match oi with
    | none => last
    | some i => Min.min i last)

/-- `mut_at`, 394-397 -/
def mutAtOn (t : Target) (h : Hist T) (value : Nat) : M (Option Nat) := do
  match ← h.indexForOn t value with
  | none => pure none
  | some i => pure (if i < h.counts.length then some i else none)

/-- `value_for`, 1532-1553: `index >> self.sub_bucket_half_count_magnitude` is a shift of a `usize` -/
def valueForOn (t : Target) (h : Hist T) (index : Nat) : M Nat := do
  if h.subBucketHalfCountMag < t.bits then h.valueFor index else .error .overflow

/-- `resize`, 1646-1670; `none` is `Err(UsizeTypeTooSmall)`, returned before anything is changed -/
def resizeOn (t : Target) (h : Hist T) (high : Nat) : M (Option (Hist T)) := do
  let l2 ← mulU64 2 h.lowestDiscernible
  assertM (decide (l2 ≤ high))
  let bn ← h.bucketsToCover high
  let n ← h.numBins bn
  match t.toUsize n with
  | none => pure none
  | some len =>
    t.grow T.bytes h.counts.length len
    pure (some { h with
      bucketCount := bn
      highestTrackable := high
      counts := vecResize h.counts len })

/-- `new_with_bounds`, 736-822 -/
def newWithBoundsOn (t : Target) (fp : Fp) (T : CounterTy) (low high sigfig : Nat) :
    M (Except CreationError (Hist T)) := do
  match ← newUnsized fp T low high sigfig with
  | .error e => pure (.error e)
  | .ok h =>
    match ← h.resizeOn t high with
    | none => pure (.error .UsizeTypeTooSmall)
    | some h => pure (.ok h)

/-- `new`, 697-703 -/
def newOn (t : Target) (fp : Fp) (T : CounterTy) (sigfig : Nat) : M (Except CreationError (Hist T)) := do
  match ← newWithBoundsOn t fp T 1 2 sigfig with
  | .ok h => pure (.ok { h with autoResize := true })
  | .error e => pure (.error e)

/-- `new_from`, 826-839 -/
def newFromOn {F : CounterTy} (t : Target) (fp : Fp) (T : CounterTy) (source : Hist F) : M (Hist T) := do
  match ← newWithBoundsOn t fp T source.lowestDiscernible source.highestTrackable source.sigDigits with
  | .error _ => .error .expect
  | .ok h =>
    t.grow T.bytes h.counts.length source.distinctValues
    pure { h with
      autoResize := source.autoResize
      counts := vecResize h.counts source.distinctValues }

/-- the end of the resizing branch of `record_n_inner`, 912-928 -/
def recordAfterResizeOn (t : Target) (h : Hist T) (value count : Nat) : M (Hist T × Except RecordError Unit) := do
  let last ← h.lastIndex
  let lv ← h.valueForOn t last
  let ht ← h.highestEquivalent lv
  let h : Hist T := { h with highestTrackable := ht }
  let i ← expectM (← h.mutAtOn t value)
  let c ← expectM (T.checkedAdd (h.counts.getD i 0) count)
  let h : Hist T := { h with counts := h.counts.set i c }
  pure (h.finishRecord value count, .ok ())

/-- `record_n_inner`, 885-929 -/
def recordNInnerOn (t : Target) (h : Hist T) (value count : Nat) (clamp : Bool) :
    M (Hist T × Except RecordError Unit) := do
  match ← h.mutAtOn t value with
  | some i => pure ((h.bumpSat i count).finishRecord value count, .ok ())
  | none =>
    if clamp then
      let value := if h.highestTrackable < value then h.highestTrackable else h.lowestDiscernible
      let i ← expectM (← h.mutAtOn t value)
      pure ((h.bumpSat i count).finishRecord value count, .ok ())
    else if !h.autoResize then
      pure (h, .error .ValueOutOfRangeResizeDisabled)
    else
      match ← h.resizeOn t value with
      | none => pure (h, .error .ResizeFailedUsizeTypeTooSmall)
      | some h => recordAfterResizeOn t h value count

/-- `record_n`, 868-870 -/
def recordNOn (t : Target) (h : Hist T) (value count : Nat) : M (Hist T × Except RecordError Unit) :=
  h.recordNInnerOn t value count false

/-- `saturating_record_n`, 881-883 -/
def saturatingRecordNOn (t : Target) (h : Hist T) (value count : Nat) : M (Hist T) := do
  match ← h.recordNInnerOn t value count true with
  | (h, .ok ()) => pure h
  | (_, .error _) => .error .expect

/-- the `while` loop of `record_n_correct`, 965-968 -/
def correctLoopOn (t : Target) (count interval : Nat) : Nat → Hist T → Nat → M (Hist T × Except RecordError Unit)
  | 0, _, _ => .error .fuel
  | fuel + 1, h, missing =>
    if interval ≤ missing then do
      match ← h.recordNInnerOn t missing count false with
      | (h, .error e) => pure (h, .error e)
      | (h, .ok ()) =>
        let m ← subU missing interval
        correctLoopOn t count interval fuel h m
    else pure (h, .ok ())

/-- `record_n_correct`, 951-972 -/
def recordNCorrectOn (t : Target) (h : Hist T) (value count interval : Nat) :
    M (Hist T × Except RecordError Unit) := do
  match ← h.recordNOn t value count with
  | (h, .error e) => pure (h, .error e)
  | (h, .ok ()) =>
    if interval = 0 then pure (h, .ok ())
    else if interval < value then
      let missing ← subU value interval
      correctLoopOn t count interval (value + 1) h missing
    else pure (h, .ok ())

/-- the re-recording loop of `add`, 533-541 -/
def addRecordLoopOn (t : Target) (source : Hist T) : List Nat → Hist T → M (Hist T)
  | [], h => .ok h
  | i :: is, h => do
    let c ← expectM (source.countAtIndex i)
    if c ≠ 0 then
      let v ← source.valueForOn t i
      match ← h.recordNOn t v c with
      | (h, .ok ()) => addRecordLoopOn t source is h
      | (_, .error _) => .error .expect
    else addRecordLoopOn t source is h

/-- the part of `add` after the range check, 481-551 -/
def addBodyOn (t : Target) (h source : Hist T) : M (Hist T) := do
  let matching := h.bucketCount == source.bucketCount
    && h.subBucketCount == source.subBucketCount && h.unitMag == source.unitMag
  -- no `usize` arithmetic on the first two paths (481-519)
  if matching then h.addBody source
  else
    let smax ← source.max
    let omi ← expectM (← source.indexForOn t smax)
    let oc ← expectM (source.countAtIndex omi)
    let v ← source.valueForOn t omi
    match ← h.recordNOn t v oc with
    | (_, .error _) => .error .expect
    | (h, .ok ()) => addRecordLoopOn t source (List.range omi) h

/-- `add`, 462-552 -/
def addOn (t : Target) (h source : Hist T) : M (Hist T × Except AdditionError Unit) := do
  if source.isEmpty then pure (h, .ok ())
  else
    let last ← h.lastIndex
    let lv ← h.valueForOn t last
    let top ← h.highestEquivalent lv
    let smax ← source.max
    if top < smax then
      if !h.autoResize then pure (h, .error .OtherAddendValueExceedsRange)
      else
        match ← h.resizeOn t smax with
        | none => pure (h, .error .ResizeFailedUsizeTypeTooSmall)
        | some h =>
          let h ← h.addBodyOn t source
          pure (h, .ok ())
    else
      let h ← h.addBodyOn t source
      pure (h, .ok ())


/-- the loop of `subtract`, 608-640 -/
def subtractLoopOn (t : Target) (subtrahend : Hist T) (oldMinHigh oldMaxLow : Nat) :
    List Nat → Hist T → Bool → M (Hist T × Except SubtractionError Bool)
  | [], h, restat => .ok (h, .ok restat)
  | i :: is, h, restat => do
    let oc ← expectM (subtrahend.countAtIndex i)
    if oc ≠ 0 then
      let ov ← subtrahend.valueForOn t i
      match ← h.mutAtOn t ov with
      | none => .error .expect
      | some j =>
        match checkedSub (h.counts.getD j 0) oc with
        | none => pure (h, .error .SubtrahendCountExceedsMinuendCount)
        | some c =>
          let h : Hist T := { h with counts := h.counts.set j c }
          let restat := restat || decide (ov ≤ oldMinHigh) || decide (oldMaxLow ≤ ov)
          if restat then subtractLoopOn t subtrahend oldMinHigh oldMaxLow is h restat
          else
            let n ← expectM (checkedSub h.totalCount oc)
            subtractLoopOn t subtrahend oldMinHigh oldMaxLow is { h with totalCount := n } restat
    else subtractLoopOn t subtrahend oldMinHigh oldMaxLow is h restat

/-- `subtract`, 587-654 (the `restat` at its end sums and compares `u64`s and calls `value_for`, see `valueForOn`) -/
def subtractOn (t : Target) (h subtrahend : Hist T) : M (Hist T × Except SubtractionError Unit) := do
  if subtrahend.isEmpty then pure (h, .ok ())
  else
    let last ← h.lastIndex
    let lv ← h.valueForOn t last
    let top ← h.highestEquivalent lv
    let smax ← subtrahend.max
    let smaxHigh ← h.highestEquivalent smax
    if top < smaxHigh then pure (h, .error .SubtrahendValueExceedsMinuendRange)
    else
      let mn ← h.min
      let oldMinHigh ← h.highestEquivalent mn
      let mx ← h.max
      let oldMaxLow ← h.lowestEquivalent mx
      match ← subtractLoopOn t subtrahend oldMinHigh oldMaxLow
          (List.range subtrahend.distinctValues) h (h.totalCount == U64MAX) with
      | (h, .error e) => pure (h, .error e)
      | (h, .ok restat) =>
        if restat then
          let h ← h.restat h.distinctValues
          pure (h, .ok ())
        else pure (h, .ok ())

/-- `count_at`, 1452-1455 -/
def countAtOn (t : Target) (h : Hist T) (value : Nat) : M Nat := do
  let i ← h.indexForOrLastOn t value
  expectM (h.countAtIndex i)

/-- `count_between`, 1435-1442: `high_index.checked_add(1)` on `usize` -/
def countBetweenOn (t : Target) (h : Hist T) (low high : Nat) : M Nat := do
  let lo ← h.indexForOrLastOn t low
  let hi ← h.indexForOrLastOn t high
  let e ← expectM (t.toUsize (hi + 1))
  h.countBetweenLoop (List.range' lo (e - lo)) 0

end Hist

namespace V2

variable {T : CounterTy}

/-- `max_encoded_size`, v2_serializer.rs:117-121, and `counts_array_max_encoded_size`, 124-130: `None` is overflow -/
def maxEncodedSizeOn (t : Target) (h : Hist T) : M (Option Nat) := do
  let mx ← h.max
  match ← h.indexForOn t mx with
  | none => pure none
  | some i =>
    let n ← t.add i 1
    match t.toUsize (n * 9) with
    | none => pure none
    | some k => pure (t.toUsize (k + HEADER_SIZE))

/-- the outer loop of `encode_counts`, v2_serializer.rs:147-188; `bytes_written` is a `usize` -/
def encodeLoopOn (t : Target) (h : Hist T) (limit : Nat) :
    Nat → Nat → List UInt8 → Nat → M (Except SerializeError (List UInt8 × Nat))
  | 0, _, _, _ => .error .fuel
  | fuel + 1, index, buf, written =>
    if index ≤ limit then do
      match ← encodeStep h limit index with
      | (_, .error e) => pure (.error e)
      | (index, .ok n) =>
        let (buf, k) ← varintWriteAt (zigZagEncode n) buf written
        let written ← t.add written k
        encodeLoopOn t h limit fuel index buf written
    else pure (.ok (buf, written))

/-- `encode_counts`, v2_serializer.rs:135-190 -/
def encodeCountsOn (t : Target) (h : Hist T) (buf : List UInt8) : M (Except SerializeError (List UInt8 × Nat)) := do
  let mx ← h.max
  let limit ← expectM (← h.indexForOn t mx)
  assertM (decide (limit ≤ h.counts.length))
  encodeLoopOn t h limit (h.counts.length + 2) 0 buf 0

/-- `V2Serializer::serialize`, v2_serializer.rs:70-114, with a new serializer (an empty buffer) -/
def serializeOn (t : Target) (junk : Nat → UInt8) (h : Hist T) : M (Except SerializeError (List UInt8 × Nat)) := do
  match ← maxEncodedSizeOn t h with
  | none => pure (.error .UsizeTypeTooSmall)
  | some maxSize =>
    t.grow 1 0 maxSize
    let hdr := header h
    assertM (decide (HEADER_SIZE = hdr.length))
    let tail := (List.range (maxSize - HEADER_SIZE)).map junk
    match ← encodeCountsOn t h tail with
    | .error e => pure (.error e)
    | .ok (tail, countsLen) =>
      let totalLen ← t.add HEADER_SIZE countsLen
      let hdr := hdr.take 4 ++ be32 (countsLen % 2 ^ 32) ++ hdr.drop 8
      let buf := hdr ++ tail
      if totalLen ≤ buf.length then pure (.ok (buf.take totalLen, totalLen)) else .error .index

/-- `dest_index.checked_add(n)`, deserializer.rs:351-354, 366-369 -/
def advanceOn (t : Target) (s : DecodeState T) (n : Nat) : Except DeserializeError (DecodeState T) :=
  if s.destIndex + n ≤ t.usizeMax then .ok { s with destIndex := s.destIndex + n }
  else .error .UsizeTypeTooSmall

/-- the non-negative half of `on_decoded_num`, deserializer.rs:356-369 -/
def onCountOn (t : Target) (s : DecodeState T) (n : Int) : Except DeserializeError (DecodeState T) :=
  if n ≤ (T.max : Int) then
    if 0 < n then
      match setCountAtIndex s.h s.destIndex n.toNat with
      | none => .error .EncodedArrayTooLong
      | some h => advanceOn t { s with h := h, restat := s.restat.onNonzeroCount s.destIndex n.toNat } 1
    else advanceOn t s 1
  else .error .UnsuitableCounterType

/-- `on_decoded_num`, deserializer.rs:338-373 -/
def onDecodedNumOn (t : Target) (checks : Bool) (s : DecodeState T) (n : Int) :
    M (Except DeserializeError (DecodeState T)) := do
  if n < 0 then
    let z ← negI64 checks n
    match (Hdr.toUsize z).bind t.toUsize with
    | none => pure (.error .UsizeTypeTooSmall)
    | some k => pure (advanceOn t s k)
  else pure (onCountOn t s n)

/-- the fast loop, deserializer.rs:175-189 -/
def fastLoopOn (t : Target) (checks : Bool) (payload : List UInt8) :
    Nat → Nat → DecodeState T → M (Except DeserializeError (Nat × DecodeState T))
  | 0, _, _ => .error .fuel
  | fuel + 1, i, s =>
    if i < payload.length - 9 then do
      let (zz, n) ← varintReadSlice ((payload.drop i).take 9)
      match ← onDecodedNumOn t checks s (zigZagDecode zz) with
      | .error e => pure (.error e)
      | .ok s => fastLoopOn t checks payload fuel (i + n) s
    else pure (.ok (i, s))

/-- the leftover loop, deserializer.rs:192-198 -/
def slowLoopOn (t : Target) (checks : Bool) :
    Nat → List UInt8 → DecodeState T → M (Except DeserializeError (DecodeState T))
  | 0, _, _ => .error .fuel
  | fuel + 1, r, s =>
    if r = [] then pure (.ok s)
    else
      match varintRead r with
      | none => pure (.error .IoError)
      | some (zz, r) => do
        match ← onDecodedNumOn t checks s (zigZagDecode zz) with
        | .error e => pure (.error e)
        | .ok s => slowLoopOn t checks fuel r s

/-- the decoding of the payload, deserializer.rs:168-202 -/
def decodePayloadOn (t : Target) (checks : Bool) (h : Hist T) (payload : List UInt8) :
    M (Except DeserializeError (Hist T)) := do
  match ← fastLoopOn t checks payload (payload.length + 1) 0 ⟨0, Hist.RestatState.new, h⟩ with
  | .error e => pure (.error e)
  | .ok (i, s) =>
    match ← slowLoopOn t checks (payload.length + 1) (payload.drop i) s with
    | .error e => pure (.error e)
    | .ok s => do
      let h ← s.restat.updateHistogram s.h
      pure (.ok h)

/-- the first field of `deser_v2` and `deser_v2_compressed`, deserializer.rs:121-124, 141-144: a length, which must be
a `usize` -/
def readLenOn (t : Target) (r : List UInt8) : Except DeserializeError Unit :=
  match readBE 4 r with
  | none => .error .IoError
  | some (n, _) =>
    match t.toUsize n with
    | none => .error .UsizeTypeTooSmall
    | some _ => .ok ()

/-- `deser_v2`, deserializer.rs:137-200, with a new deserializer (an empty buffer) -/
def deserV2On (t : Target) (fp : Fp) (T : CounterTy) (checks : Bool) (r : List UInt8) :
    M (Except DeserializeError (Hist T × List UInt8)) := do
  match readLenOn t r with
  | .error e => pure (.error e)
  | .ok _ =>
  match readHeader r with
  | .error e => pure (.error e)
  | .ok hd =>
    match ← Hist.newWithBoundsOn t fp T hd.low hd.high hd.digits with
    | .error _ => pure (.error .InvalidParameters)
    | .ok h =>
      t.grow 1 0 hd.payloadLen
      match readN hd.payloadLen hd.rest with
      | none => pure (.error .IoError)
      | some (payload, rest) =>
        match ← decodePayloadOn t checks h payload with
        | .error e => pure (.error e)
        | .ok h => pure (.ok (h, rest))

/-- `deser_v2_compressed`, deserializer.rs:117-134 -/
def deserV2CompressedOn (t : Target) (fp : Fp) (z : Zlib) (T : CounterTy) (checks : Bool) (r : List UInt8) :
    M (Except DeserializeError (Hist T × List UInt8)) := do
  match readLenOn t r with
  | .error e => pure (.error e)
  | .ok _ =>
  match readBE 4 r with
  | none => pure (.error .IoError)
  | some (payloadLen, r) =>
    let compressed := r.take payloadLen
    match readBE 4 (z.inflate compressed) with
    | none => pure (.error .IoError)
    | some (cookie, inner) =>
      if cookie ≠ COOKIE then pure (.error .InvalidCookie)
      else
        match ← deserV2On t fp T checks inner with
        | .error e => pure (.error e)
        | .ok (h, _) => pure (.ok (h, r.drop (compressed.length - z.unread compressed)))

/-- `Deserializer::deserialize`, deserializer.rs:104-115 -/
def deserializeOn (t : Target) (fp : Fp) (z : Zlib) (T : CounterTy) (checks : Bool) (r : List UInt8) :
    M (Except DeserializeError (Hist T × List UInt8)) :=
  match readBE 4 r with
  | none => pure (.error .IoError)
  | some (cookie, r) =>
    if cookie = COOKIE then deserV2On t fp T checks r
    else if cookie = COMPRESSED_COOKIE then deserV2CompressedOn t fp z T checks r
    else pure (.error .InvalidCookie)

end V2
end Hdr
