import Verif.Model.V2
import Verif.Model.IntervalLog

/-!
# Model of reading and writing through `Read` and `Write`

`Model/V2` and `Model/IntervalLog` read from a list of bytes and append to one. Here the same functions
are modelled over arbitrary readers and writers, with the buffers they keep between calls:
`Deserializer::deserialize` (deserializer.rs:82-200), `V2Serializer::serialize` (v2_serializer.rs:70-114),
`V2DeflateSerializer::serialize` (v2_deflate_serializer.rs:78-132), and the interval log writer
(interval_log/mod.rs:440-498).

`read_exact` and `write_all` are the default implementations of the standard library. The payload of an
`io::Error` is dropped, except for `ErrorKind::Interrupted`, after which both try again. They loop as
long as a reader or writer interrupts them, so they are given fuel.
-/

namespace Hdr
namespace Io

variable {T : CounterTy}

/-- what `read` and `write` return -/
inductive Res where
  | ok (n : Nat)
  | interrupted
  | failed
  deriving DecidableEq, Repr

/-- `std::io::Read`: `read` gets a buffer and returns its new contents -/
structure Source where
  State : Type
  read : State → List UInt8 → Res × List UInt8 × State

/-- `std::io::Write` -/
structure Sink where
  State : Type
  write : State → List UInt8 → Res × State

/-! ## Reading -/

/-- `std::io::default_read_exact` into `buf`, of which `done` is filled already: whether it succeeded, the
whole buffer, and the reader -/
def readExact (src : Source) : Nat → src.State → List UInt8 → List UInt8 → M (Bool × List UInt8 × src.State)
  | 0, _, _, _ => .error .fuel
  | fuel + 1, s, done, buf =>
    if buf = [] then .ok (true, done, s)
    else
      match src.read s buf with
      | (.ok 0, buf, s) => .ok (false, done ++ buf, s)
      | (.ok n, buf, s) =>
        -- `&mut buf[n..]`
        if n ≤ buf.length then readExact src fuel s (done ++ buf.take n) (buf.drop n) else .error .index
      | (.interrupted, buf, s) => readExact src fuel s done buf
      | (.failed, buf, s) => .ok (false, done ++ buf, s)

/-- `read_u32::<BigEndian>` and `read_u64::<BigEndian>` of byteorder: `read_exact` into an array of zeros -/
def readBE (src : Source) (fuel : Nat) (n : Nat) (s : src.State) : M (Option Nat × src.State) := do
  let (good, buf, s) ← readExact src fuel s [] (List.replicate n 0)
  pure (if good then some (V2.beVal buf) else none, s)

/-- the header part of `deser_v2`, deserializer.rs:141-159, `rest` unused -/
def readHeader (src : Source) (fuel : Nat) (s : src.State) : M (Except V2.DeserializeError V2.Header × src.State) := do
  match ← readBE src fuel 4 s with
  | (none, s) => pure (.error .IoError, s)
  | (some payloadLen, s) =>
  match ← readBE src fuel 4 s with
  | (none, s) => pure (.error .IoError, s)
  | (some offset, s) =>
  if offset ≠ 0 then pure (.error .UnsupportedFeature, s) else
  match ← readBE src fuel 4 s with
  | (none, s) => pure (.error .IoError, s)
  | (some digits, s) =>
  if 255 < digits then pure (.error .InvalidParameters, s) else
  match ← readBE src fuel 8 s with
  | (none, s) => pure (.error .IoError, s)
  | (some low, s) =>
  match ← readBE src fuel 8 s with
  | (none, s) => pure (.error .IoError, s)
  | (some high, s) =>
  match ← readBE src fuel 8 s with
  | (none, s) => pure (.error .IoError, s)
  | (some ratio, s) =>
  if ratio ≠ V2.ONE_BITS then pure (.error .UnsupportedFeature, s) else
  pure (.ok ⟨payloadLen, digits, low, high, []⟩, s)

/-- `payload_buf.resize(payload_len, 0)` if it is shorter, deserializer.rs:164-166 -/
def growBuf (buf : List UInt8) (n : Nat) : List UInt8 :=
  if buf.length < n then buf ++ List.replicate (n - buf.length) 0 else buf

/-- what `deserialize` leaves behind: the reader and `payload_buf` -/
structure After (src : Source) where
  reader : src.State
  payloadBuf : List UInt8

/-- `deser_v2`, deserializer.rs:137-200, with the `payload_buf` of the deserializer -/
def deserV2 (fp : Fp) (T : CounterTy) (checks : Bool) (src : Source) (fuel : Nat) (s : src.State) (pbuf : List UInt8) :
    M (Except V2.DeserializeError (Hist T) × After src) := do
  match ← readHeader src fuel s with
  | (.error e, s) => pure (.error e, ⟨s, pbuf⟩)
  | (.ok hd, s) =>
    match ← Hist.newWithBounds fp T hd.low hd.high hd.digits with
    | .error _ => pure (.error .InvalidParameters, ⟨s, pbuf⟩)
    | .ok h =>
      let pbuf := growBuf pbuf hd.payloadLen
      let (good, slice, s) ← readExact src fuel s [] (pbuf.take hd.payloadLen)
      let pbuf := slice ++ pbuf.drop hd.payloadLen
      if good then
        match ← V2.decodePayload checks h (pbuf.take hd.payloadLen) with
        | .error e => pure (.error e, ⟨s, pbuf⟩)
        | .ok h => pure (.ok h, ⟨s, pbuf⟩)
      else pure (.error .IoError, ⟨s, pbuf⟩)

/-- `Read::take`, std: at most `limit` bytes of the reader -/
def takeSource (src : Source) : Source where
  State := src.State × Nat
  read := fun (s, limit) buf =>
    if limit = 0 then (.ok 0, buf, (s, 0))
    else
      let (r, b, s) := src.read s (buf.take limit)
      (r, b ++ buf.drop limit, (s, match r with | .ok n => limit - n | _ => limit))

/-- `reader.take(n)` -/
def takeNew {src : Source} (s : src.State) (n : Nat) : (takeSource src).State := (s, n)

/-- the reader inside -/
def takeInner {src : Source} (t : (takeSource src).State) : src.State := t.1

/-- `flate2::read::ZlibDecoder`, a parameter: a reader made from a reader; and the reader it was made from -/
structure Decoder where
  source : Source → Source
  new : ∀ {src : Source}, src.State → (source src).State
  inner : ∀ {src : Source}, (source src).State → src.State

/-- `deser_v2_compressed`, deserializer.rs:117-134 -/
def deserV2Compressed (fp : Fp) (dec : Decoder) (T : CounterTy) (checks : Bool) (src : Source) (fuel : Nat)
    (s : src.State) (pbuf : List UInt8) : M (Except V2.DeserializeError (Hist T) × After src) := do
  match ← readBE src fuel 4 s with
  | (none, s) => pure (.error .IoError, ⟨s, pbuf⟩)
  | (some payloadLen, s) =>
    match ← readBE (dec.source (takeSource src)) fuel 4 (dec.new (takeNew s payloadLen)) with
    | (none, d) => pure (.error .IoError, ⟨takeInner (dec.inner d), pbuf⟩)
    | (some cookie, d) =>
      if cookie ≠ V2.COOKIE then pure (.error .InvalidCookie, ⟨takeInner (dec.inner d), pbuf⟩)
      else do
        let (r, a) ← deserV2 fp T checks (dec.source (takeSource src)) fuel d pbuf
        pure (r, ⟨takeInner (dec.inner a.reader), a.payloadBuf⟩)

/-- `Deserializer::deserialize`, deserializer.rs:104-115 -/
def deserialize (fp : Fp) (dec : Decoder) (T : CounterTy) (checks : Bool) (src : Source) (fuel : Nat) (s : src.State)
    (pbuf : List UInt8) : M (Except V2.DeserializeError (Hist T) × After src) := do
  match ← readBE src fuel 4 s with
  | (none, s) => pure (.error .IoError, ⟨s, pbuf⟩)
  | (some cookie, s) =>
    if cookie = V2.COOKIE then deserV2 fp T checks src fuel s pbuf
    else if cookie = V2.COMPRESSED_COOKIE then deserV2Compressed fp dec T checks src fuel s pbuf
    else pure (.error .InvalidCookie, ⟨s, pbuf⟩)

/-! ## Writing -/

/-- `std::io::Write::write_all`: whether it succeeded, and the writer -/
def writeAll (sink : Sink) : Nat → sink.State → List UInt8 → M (Bool × sink.State)
  | 0, _, _ => .error .fuel
  | fuel + 1, s, buf =>
    if buf = [] then .ok (true, s)
    else
      match sink.write s buf with
      | (.ok 0, s) => .ok (false, s)
      | (.ok n, s) => if n ≤ buf.length then writeAll sink fuel s (buf.drop n) else .error .index
      | (.interrupted, s) => writeAll sink fuel s buf
      | (.failed, s) => .ok (false, s)

/-- an error of the code, or `IoError` -/
inductive OrIo (ε : Type) where
  | err (e : ε)
  | io
  deriving DecidableEq, Repr

/-- the end of `V2Serializer::serialize`, v2_serializer.rs:110-113, and of `V2DeflateSerializer::serialize`,
v2_deflate_serializer.rs:129-131: the bytes prepared in the buffer are handed to the writer -/
def finish (sink : Sink) (fuel : Nat) (s : sink.State) :
    Except V2.SerializeError (List UInt8 × Nat) → M (Except (OrIo V2.SerializeError) Nat × sink.State)
  | .error e => .ok (.error (.err e), s)
  | .ok (bytes, n) => do
    let (good, s) ← writeAll sink fuel s bytes
    pure (if good then .ok n else .error .io, s)

/-- `V2Serializer::serialize`, v2_serializer.rs:70-114. `junk` is what the reserved part of the reused buffer holds. -/
def serialize (sink : Sink) (fuel : Nat) (junk : Nat → UInt8) (h : Hist T) (s : sink.State) :
    M (Except (OrIo V2.SerializeError) Nat × sink.State) := do
  finish sink fuel s (← V2.serialize junk h)

/-- `V2DeflateSerializer::serialize`, v2_deflate_serializer.rs:78-132 -/
def serializeDeflate (z : V2.Zlib) (sink : Sink) (fuel : Nat) (junk : Nat → UInt8) (h : Hist T) (s : sink.State) :
    M (Except (OrIo V2.SerializeError) Nat × sink.State) := do
  finish sink fuel s (← V2.serializeDeflate z junk h)

/-- pieces written one after the other until one fails; `write_fmt` does this with the pieces of the formatted text
(here, one piece), and so does a sequence of calls joined by `?` -/
def writePieces (sink : Sink) (fuel : Nat) : sink.State → List (List UInt8) → M (Bool × sink.State)
  | s, [] => .ok (true, s)
  | s, p :: ps => do
    match ← writeAll sink fuel s p with
    | (false, s) => pure (false, s)
    | (true, s) => writePieces sink fuel s ps

/-- interval_log/mod.rs:454-460 `write_comment` -/
def writeComment (sink : Sink) (fuel : Nat) (s : sink.State) (text : Log.Str) : M (Bool × sink.State) :=
  writePieces sink fuel s ((Log.splitLines text).map fun l => Log.Str.bytes ('#' :: l ++ ['\n']))

/-- interval_log/mod.rs:462-498 `write_histogram` -/
def writeHistogram {ε : Type} (f : Log.Fmt) (divisor : F64) (ser : Log.Ser ε) (sink : Sink) (fuel : Nat)
    (h : Hist T) (start duration : Log.Dur) (tag : Option Log.Tag) (s : sink.State) :
    M (Except (OrIo ε) Unit × sink.State) := do
  let max ← h.max
  let head := Log.Str.bytes (Log.tagText tag ++ f.fixed3 (Log.durationAsFpSeconds start) ++ [',']
    ++ f.fixed3 (Log.durationAsFpSeconds duration) ++ [','] ++ f.fixed3 (F64.div (F64.ofNat max) divisor) ++ [','])
  match ← writeAll sink fuel s head with
  | (false, s) => pure (.error .io, s)
  | (true, s) =>
    match ← ser h with
    | .error e => pure (.error (.err e), s)
    | .ok buf =>
      match ← writePieces sink fuel s [Log.Str.bytes (Log.b64Encode buf), [10]] with
      | (false, s) => pure (.error .io, s)
      | (true, s) => pure (.ok (), s)

/-- one call on an `IntervalLogWriter` -/
def logOp {ε : Type} (f : Log.Fmt) (divisor : F64) (ser : Log.Ser ε) (sink : Sink) (fuel : Nat) (s : sink.State) :
    Log.Op → M (Except (OrIo ε) Unit × sink.State)
  | .comment text => do
    let (good, s) ← writeComment sink fuel s text
    pure (if good then .ok () else .error .io, s)
  | .hist h start duration tag => writeHistogram f divisor ser sink fuel h start duration tag s

/-- calls on an `IntervalLogWriter` until one fails -/
def logOps {ε : Type} (f : Log.Fmt) (divisor : F64) (ser : Log.Ser ε) (sink : Sink) (fuel : Nat) :
    sink.State → List Log.Op → M (Except (OrIo ε) Unit × sink.State)
  | s, [] => .ok (.ok (), s)
  | s, op :: ops => do
    match ← logOp f divisor ser sink fuel s op with
    | (.error e, s) => pure (.error e, s)
    | (.ok (), s) => logOps f divisor ser sink fuel s ops

/-- interval_log/mod.rs:305-346 `begin_log_with`: what it writes one after the other (writing no bytes does nothing) -/
def beginPieces (f : Log.Fmt) (b : Log.Builder) : List (List UInt8) :=
  (b.comments.flatMap fun c => (Log.splitLines c).map fun l => Log.Str.bytes ('#' :: l ++ ['\n']))
    ++ [Log.headerBytes f Log.startTimeTag b.startTime, Log.headerBytes f Log.baseTimeTag b.baseTime,
      if !F64.feq b.maxValueDivisor (.fin 1) then
        Log.Str.bytes (Log.divisorTag ++ f.fixed3 b.maxValueDivisor ++ [']', '\n'])
      else []]

/-- interval_log/mod.rs:305-346 `begin_log_with` and then calls of the writer -/
def writeLog {ε : Type} (f : Log.Fmt) (b : Log.Builder) (ser : Log.Ser ε) (sink : Sink) (fuel : Nat) (s : sink.State)
    (ops : List Log.Op) : M (Except (OrIo ε) Unit × sink.State) := do
  match ← writePieces sink fuel s (beginPieces f b) with
  | (false, s) => pure (.error .io, s)
  | (true, s) => logOps f b.maxValueDivisor ser sink fuel s ops

end Io
end Hdr
