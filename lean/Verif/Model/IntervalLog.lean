import Verif.Model.V2
import Verif.Model.F64
import Mathlib.Data.List.DropRight
import Mathlib.Algebra.Order.Field.Rat

/-!
# The interval log: `src/serialization/interval_log/mod.rs`

`&str` is a list of characters, `&[u8]` a list of bytes; `Str.bytes` is UTF-8 encoding (of the Lean core library) and
`fromUtf8` is `str::from_utf8`.

The parser combinators are those of the crate nom 7 (`nom::bytes::complete`, `nom::character::complete`). That crate is not
part of the repository; the functions below follow its documentation. All parsers of the file turn every kind of nom error
into "this parser does not apply", and the only caller, `IntervalLogIterator::next`, does not look at the error either, so a
parser is a function to `Option`. Parsers that contain code which could panic are in `M`.
-/

namespace Hdr.Log

open Hdr

abbrev Bytes := List UInt8
abbrev Str := List Char

/-- the UTF-8 bytes of a string -/
def Str.bytes (s : Str) : Bytes := s.flatMap String.utf8EncodeChar

/-- `str::from_utf8` -/
def fromUtf8 (b : Bytes) : Option Str := b.toByteArray.utf8Decode?.map (·.toList)

/-! ## nom combinators -/

/-- `nom::bytes::complete::tag`, and `nom::character::complete::char` for one ASCII character -/
def tagP : Bytes → Bytes → Option Bytes
  | [], i => some i
  | a :: t, b :: i => if a = b then tagP t i else none
  | _ :: _, [] => none

/-- `nom::bytes::complete::take_until` with a pattern of one byte: what is before its first occurrence, and what is from
there on -/
def takeUntil (c : UInt8) : Bytes → Option (Bytes × Bytes)
  | [] => none
  | b :: i =>
    if b = c then some ([], b :: i)
    else match takeUntil c i with
      | some (x, r) => some (b :: x, r)
      | none => none

/-- `nom::bytes::complete::take(1)` -/
def take1 : Bytes → Option Bytes
  | [] => none
  | _ :: i => some i

/-- `nom::bytes::complete::take_while1` -/
def takeWhile1 (p : UInt8 → Bool) (i : Bytes) : Option (Bytes × Bytes) :=
  if i.takeWhile p = [] then none else some (i.takeWhile p, i.dropWhile p)

/-- `nom::character::is_digit` -/
def isDigit (b : UInt8) : Bool := 48 ≤ b && b ≤ 57

/-- `nom::number::complete::double`, as a recogniser: the text of the number and what follows. Which texts are accepted
changed between versions of nom 7, so it is a parameter. The conversion of the text to `f64` is another one, where it matters (`NumLaw` in Spec/LogMax). -/
structure Dbl where
  run : Bytes → Option (Bytes × Bytes)

/-! ## `std`: integers from text, `Duration` -/

/-- value of a decimal digit, `char::to_digit(10)` -/
def digit? (c : Char) : Option Nat := if '0' ≤ c ∧ c ≤ '9' then some (c.toNat - 48) else none

/-- the loop of `from_str_radix`, with `checked_mul` and `checked_add` -/
def digitsLoop (max : Nat) : Str → Nat → Option Nat
  | [], acc => some acc
  | c :: s, acc =>
    match digit? c with
    | none => none
    | some d =>
      if max < acc * 10 then none
      else if max < acc * 10 + d then none
      else digitsLoop max s (acc * 10 + d)

/-- `u64::from_str`, `str::parse::<u32>`: an optional plus sign and at least one digit -/
def parseUnsigned (max : Nat) (s : Str) : Option Nat :=
  match s with
  | [] => none
  | ['+'] => none
  | '+' :: s => digitsLoop max s 0
  | s => digitsLoop max s 0

/-- `std::time::Duration` -/
structure Dur where
  secs : Nat
  nanos : Nat
  deriving DecidableEq, Repr

/-- `Duration::new`: panics when the carry overflows the seconds -/
def Dur.new (secs nanos : Nat) : M Dur :=
  if nanos < 1000000000 then .ok ⟨secs, nanos⟩
  else if secs + nanos / 1000000000 ≤ U64MAX then .ok ⟨secs + nanos / 1000000000, nanos % 1000000000⟩
  else .error .expect

/-- `&s[0..n]`: panics past the end and inside a character -/
def strSlice : Nat → Str → M Str
  | 0, _ => .ok []
  | _ + 1, [] => .error .index
  | n + 1, c :: s =>
    if c.utf8Size ≤ n + 1 then do
      let r ← strSlice (n + 1 - c.utf8Size) s
      .ok (c :: r)
    else .error .index
termination_by _ s => s.length

/-! ## Parsers, mod.rs 709-819 -/

/-- mod.rs 811-819 `fract_sec_tuple` (`recognize(take_until("."))` is what `take_until(".")` returns) -/
def fractSecTuple (i : Bytes) : Option ((Nat × Str) × Bytes) := do
  let (s, i) ← takeUntil 46 i
  let s ← fromUtf8 s
  let secs ← parseUnsigned U64MAX s
  let i ← tagP [46] i
  let (d, i) ← takeWhile1 isDigit i
  let nanosStr ← fromUtf8 d
  some ((secs, nanosStr), i)

/-- mod.rs 791-798, the match on the number of digits -/
def nanosOf (nanosStr : Str) : M (Option Nat) :=
  if 9 < nanosStr.bytes.length then do
    let t ← strSlice 9 nanosStr
    .ok (parseUnsigned 4294967295 t)
  else if nanosStr.bytes.length = 9 then .ok (parseUnsigned 4294967295 nanosStr)
  else
    match parseUnsigned 4294967295 nanosStr with
    | none => .ok none
    | some n => do
      let e ← subU 9 nanosStr.bytes.length
      let n ← mulU32 n (10 ^ e)
      .ok (some n)

/-- mod.rs 786-807 `fract_sec_duration` -/
def fractSecDuration (i : Bytes) : M (Option (Dur × Bytes)) :=
  match fractSecTuple i with
  | none => .ok none
  | some ((secs, nanosStr), rest) => do
    match ← nanosOf nanosStr with
    | some nanos => do
      let d ← Dur.new secs nanos
      .ok (some (d, rest))
    | none => .ok none

/-- an interval histogram, mod.rs 539-545; `max` is the text of the number -/
structure Interval where
  tag : Option Str
  start : Dur
  duration : Dur
  max : Bytes
  encoded : Str
  deriving DecidableEq

/-- mod.rs 594-601 `LogEntry` -/
inductive Entry where
  | startTime (d : Dur)
  | baseTime (d : Dur)
  | interval (h : Interval)
  deriving DecidableEq

/-- the end of a line: `take_until("\n")`, then `take(1)`, for parsers that ignore the text -/
def skipLine (i : Bytes) : Option Bytes := do
  let (_, i) ← takeUntil 10 i
  take1 i

/-- the tail shared by `start_time` and `base_time`: a space, the rest of the line, the line feed -/
def headerEnd (i : Bytes) : Option Bytes := do
  let i ← tagP [32] i
  skipLine i

def startTimeTag : Str := ['#', '[', 'S', 't', 'a', 'r', 't', 'T', 'i', 'm', 'e', ':', ' ']
def baseTimeTag : Str := ['#', '[', 'B', 'a', 's', 'e', 'T', 'i', 'm', 'e', ':', ' ']
def tagTag : Str := ['T', 'a', 'g', '=']
def legendTag : Str := ['"', 'S', 't', 'a', 'r', 't', 'T', 'i', 'm', 'e', 's', 't', 'a', 'm', 'p', '"']

/-- mod.rs 709-725 `start_time`, `base_time`, given the header text -/
def headerTime (header : Str) (i : Bytes) : M (Option (Dur × Bytes)) :=
  match tagP header.bytes i with
  | none => .ok none
  | some i => do
    match ← fractSecDuration i with
    | none => .ok none
    | some (d, i) =>
      match headerEnd i with
      | none => .ok none
      | some i => .ok (some (d, i))

/-- mod.rs 727-732 `tag_bytes` -/
def tagBytes (i : Bytes) : Option (Bytes × Bytes) := do
  let i ← tagP tagTag.bytes i
  let (t, i) ← takeUntil 44 i
  let i ← take1 i
  some (t, i)

/-- mod.rs 734-737 `tag_parser` -/
def tagParser (i : Bytes) : Option (Str × Bytes) := do
  let (t, i) ← tagBytes i
  let t ← fromUtf8 t
  some (t, i)

/-- `opt(tag_parser)` -/
def optTag (i : Bytes) : Option Str × Bytes :=
  match tagParser i with
  | some (t, i) => (some t, i)
  | none => (none, i)

/-- `fract_sec_duration` followed by `char(',')` -/
def durComma (i : Bytes) : M (Option (Dur × Bytes)) := do
  match ← fractSecDuration i with
  | none => .ok none
  | some (d, i) =>
    match tagP [44] i with
    | none => .ok none
    | some i => .ok (some (d, i))

/-- `str::trim_end_matches('\r')` -/
def trimCr (s : Str) : Str := s.rdropWhile (· = '\r')

/-- mod.rs 745-750: the maximum, a comma, the encoded histogram up to the end of the line -/
def intervalEnd (D : Dbl) (i : Bytes) : Option ((Bytes × Str) × Bytes) := do
  let (max, i) ← D.run i
  let i ← tagP [44] i
  let (e, i) ← takeUntil 10 i
  let e ← fromUtf8 e
  let i ← take1 i
  some ((max, trimCr e), i)

/-- mod.rs 739-762 `interval_hist` -/
def intervalHist (D : Dbl) (i : Bytes) : M (Option (Interval × Bytes)) := do
  let (tag, i) := optTag i
  match ← durComma i with
  | none => .ok none
  | some (start, i) =>
    match ← durComma i with
    | none => .ok none
    | some (duration, i) =>
      match intervalEnd D i with
      | none => .ok none
      | some ((max, encoded), i) => .ok (some (⟨tag, start, duration, max, encoded⟩, i))

/-- mod.rs 764-766 `log_entry`: the first alternative that applies -/
def logEntry (D : Dbl) (i : Bytes) : M (Option (Entry × Bytes)) := do
  match ← headerTime startTimeTag i with
  | some (d, r) => .ok (some (.startTime d, r))
  | none =>
    match ← headerTime baseTimeTag i with
    | some (d, r) => .ok (some (.baseTime d, r))
    | none =>
      match ← intervalHist D i with
      | some (h, r) => .ok (some (.interval h, r))
      | none => .ok none

/-- mod.rs 768-773 `comment_line` and 775-780 `legend`, given the text a line begins with -/
def lineFrom (t : Str) (i : Bytes) : Option Bytes := do
  let i ← tagP t.bytes i
  skipLine i

/-- mod.rs 782-784 `ignored_line` -/
def ignoredLine (i : Bytes) : Option Bytes :=
  match lineFrom ['#'] i with
  | some r => some r
  | none => lineFrom legendTag i

/-! ## The iterator, mod.rs 641-694 -/

/-- mod.rs 641-645; `LogIteratorError::ParseError` is represented by its offset -/
structure Iter where
  origLen : Nat
  input : Bytes
  ended : Bool
  deriving DecidableEq

/-- mod.rs 649-655 `IntervalLogIterator::new` -/
def Iter.new (input : Bytes) : Iter := ⟨input.length, input, false⟩

/-- mod.rs 662-692, the loop of `next`; an iteration that goes on consumes a line, so the fuel given by `next` suffices -/
def Iter.nextLoop (D : Dbl) : Nat → Iter → M (Option (Except Nat Entry) × Iter)
  | 0, _ => .error .fuel
  | n + 1, it =>
    if it.ended then .ok (none, it)
    else if it.input = [] then .ok (none, { it with ended := true })
    else do
      match ← logEntry D it.input with
      | some (e, rest) => .ok (some (.ok e), { it with input := rest })
      | none =>
        match ignoredLine it.input with
        | some rest => nextLoop D n { it with input := rest }
        | none => do
          let offset ← subU it.origLen it.input.length
          .ok (some (.error offset), { it with ended := true })

/-- mod.rs 661-693 `Iterator::next` -/
def Iter.next (D : Dbl) (it : Iter) : M (Option (Except Nat Entry) × Iter) :=
  it.nextLoop D (it.input.length + 1)

/-! ## The writer, mod.rs 237-498 -/

/-- mod.rs 507-527 `Tag` -/
structure Tag where
  str : Str
  deriving DecidableEq

/-- mod.rs 513-522 `Tag::new` -/
def Tag.new (s : Str) : Option Tag :=
  if s.any fun c => c == ',' || c == '\r' || c == '\n' || c == ' ' then none else some ⟨s⟩

/-- mod.rs 524-526 `Tag::as_str` -/
def Tag.asStr (t : Tag) : Str := t.str

/-- The choice `{:.3}` makes when it rounds a non-negative number to thousandths. Which of two equally near ones is taken
is left open. -/
structure Fmt where
  ms : ℚ → Nat
  near : ∀ x : ℚ, 0 ≤ x → |(ms x : ℚ) / 1000 - x| ≤ 1 / 2000

/-- decimal digits of a number, at least one, by at most `k` divisions -/
def decimalLoop : Nat → Nat → Str
  | 0, _ => []
  | k + 1, n => if n < 10 then [Char.ofNat (48 + n)] else decimalLoop k (n / 10) ++ [Char.ofNat (48 + n % 10)]

/-- decimal digits of a number, at least one -/
def decimal (n : Nat) : Str := decimalLoop (n + 1) n

/-- a number of thousandths below 1000 with three digits -/
def pad3 (n : Nat) : Str := [Char.ofNat (48 + n / 100), Char.ofNat (48 + n / 10 % 10), Char.ofNat (48 + n % 10)]

/-- thousandths as text -/
def milli (n : Nat) : Str := decimal (n / 1000) ++ '.' :: pad3 (n % 1000)

/-- `{:.3}` of an `f64`. `F64` has no negative zero: where Rust writes `-0.000` for it, this writes `0.000`. -/
def Fmt.fixed3 (f : Fmt) : F64 → Str
  | .nan => ['N', 'a', 'N']
  | .pinf => ['i', 'n', 'f']
  | .ninf => ['-', 'i', 'n', 'f']
  | .fin q => if q < 0 then '-' :: milli (f.ms (-q)) else milli (f.ms q)

/-- mod.rs 696-698 `duration_as_fp_seconds` -/
def durationAsFpSeconds (d : Dur) : F64 :=
  F64.add (F64.ofNat d.secs) (F64.div (F64.ofNat d.nanos) (F64.ofNat 1000000000))

/-- `SystemTime::duration_since(UNIX_EPOCH)` -/
inductive SysTime where
  | afterEpoch (d : Dur)
  | beforeEpoch (d : Dur)

/-- mod.rs 700-707 `system_time_as_fp_seconds` -/
def systemTimeAsFpSeconds : SysTime → F64
  | .afterEpoch d => durationAsFpSeconds d
  | .beforeEpoch d => F64.mul (durationAsFpSeconds d) (.fin (-1))

/-- mod.rs 237-242 `IntervalLogWriterBuilder` -/
structure Builder where
  comments : List Str
  startTime : Option F64
  baseTime : Option F64
  maxValueDivisor : F64

/-- mod.rs 252-259 -/
def Builder.new : Builder := ⟨[], none, none, .fin 1⟩
/-- mod.rs 264-267 -/
def Builder.addComment (b : Builder) (s : Str) : Builder := { b with comments := b.comments ++ [s] }
/-- mod.rs 273-276 -/
def Builder.withStartTime (b : Builder) (t : SysTime) : Builder := { b with startTime := some (systemTimeAsFpSeconds t) }
/-- mod.rs 282-285 -/
def Builder.withBaseTime (b : Builder) (t : SysTime) : Builder := { b with baseTime := some (systemTimeAsFpSeconds t) }
/-- mod.rs 298-301 -/
def Builder.withMaxValueDivisor (b : Builder) (x : F64) : Builder := { b with maxValueDivisor := x }

/-- `str::split('\n')` -/
def splitLines : Str → List Str
  | [] => [[]]
  | c :: s =>
    if c = '\n' then [] :: splitLines s
    else match splitLines s with
      | [] => [[c]]
      | l :: ls => (c :: l) :: ls

/-- mod.rs 454-460 `InternalLogWriter::write_comment`: the bytes it appends (the writer is memory and does not fail) -/
def commentBytes (s : Str) : Bytes := (splitLines s).flatMap fun l => Str.bytes ('#' :: l ++ ['\n'])

def epochText : Str := " (seconds since epoch)]\n".toList
def divisorTag : Str := ['#', '[', 'M', 'a', 'x', 'V', 'a', 'l', 'u', 'e', 'D', 'i', 'v', 'i', 's', 'o', 'r', ':', ' ']

/-- mod.rs 322-334: one time header -/
def headerBytes (f : Fmt) (header : Str) : Option F64 → Bytes
  | none => []
  | some t => Str.bytes (header ++ f.fixed3 t ++ epochText)

/-- mod.rs 305-346 `begin_log_with`: the bytes it appends -/
def Builder.beginBytes (f : Fmt) (b : Builder) : Bytes :=
  b.comments.flatMap commentBytes ++ headerBytes f startTimeTag b.startTime ++ headerBytes f baseTimeTag b.baseTime
    ++ (if !F64.feq b.maxValueDivisor (.fin 1) then
          Str.bytes (divisorTag ++ f.fixed3 b.maxValueDivisor ++ [']', '\n'])
        else [])

/-! ### base64

The crate base64 is not part of the repository; `general_purpose::STANDARD` is RFC 4648 with padding. -/

def b64Table : List Char :=
  ['A', 'B', 'C', 'D', 'E', 'F', 'G', 'H', 'I', 'J', 'K', 'L', 'M', 'N', 'O', 'P', 'Q', 'R', 'S', 'T', 'U', 'V', 'W',
   'X', 'Y', 'Z', 'a', 'b', 'c', 'd', 'e', 'f', 'g', 'h', 'i', 'j', 'k', 'l', 'm', 'n', 'o', 'p', 'q', 'r', 's', 't',
   'u', 'v', 'w', 'x', 'y', 'z', '0', '1', '2', '3', '4', '5', '6', '7', '8', '9', '+', '/']

/-- character for six bits -/
def b64Char (n : Nat) : Char := b64Table.getD n '?'

/-- `STANDARD.encode_string` -/
def b64Encode : Bytes → Str
  | a :: b :: c :: rest =>
    b64Char (a.toNat / 4) :: b64Char (a.toNat % 4 * 16 + b.toNat / 16) :: b64Char (b.toNat % 16 * 4 + c.toNat / 64)
      :: b64Char (c.toNat % 64) :: b64Encode rest
  | [a, b] => [b64Char (a.toNat / 4), b64Char (a.toNat % 4 * 16 + b.toNat / 16), b64Char (b.toNat % 16 * 4), '=']
  | [a] => [b64Char (a.toNat / 4), b64Char (a.toNat % 4 * 16), '=', '=']
  | [] => []

/-! ### writing intervals -/

variable {T : CounterTy} {ε : Type}

/-- mod.rs 472-474: the tag with its comma -/
def tagText : Option Tag → Str
  | some t => tagTag ++ t.str ++ [',']
  | none => []

/-- mod.rs 462-498 `InternalLogWriter::write_histogram`: the bytes it appends to the writer, also when it fails, and its
result. `ser` is `Serializer::serialize` on an empty buffer. -/
def writeHistogram (f : Fmt) (divisor : F64) (ser : Hist T → M (Except ε Bytes)) (h : Hist T) (start duration : Dur)
    (tag : Option Tag) : M (Bytes × Except ε Unit) := do
  let max ← h.max
  let head := Str.bytes (tagText tag ++ f.fixed3 (durationAsFpSeconds start) ++ [',']
    ++ f.fixed3 (durationAsFpSeconds duration) ++ [','] ++ f.fixed3 (F64.div (F64.ofNat max) divisor) ++ [','])
  match ← ser h with
  | .error e => .ok (head, .error e)
  | .ok buf => .ok (head ++ Str.bytes (b64Encode buf) ++ [10], .ok ())

/-- a call on an `IntervalLogWriter` -/
inductive Op where
  | comment (s : Str)
  | hist {T : CounterTy} (h : Hist T) (start duration : Dur) (tag : Option Tag)

/-- a serializer: `Serializer::serialize` for every counter type -/
abbrev Ser (ε : Type) := ∀ {T : CounterTy}, Hist T → M (Except ε Bytes)

/-- the bytes one call appends, and its result -/
def Op.run (f : Fmt) (divisor : F64) (ser : Ser ε) : Op → M (Bytes × Except ε Unit)
  | .comment s => .ok (commentBytes s, .ok ())
  | .hist h start duration tag => writeHistogram f divisor ser h start duration tag

/-- a sequence of calls that all succeed: the bytes appended -/
def runOps (f : Fmt) (divisor : F64) (ser : Ser ε) : List Op → M (Except ε Bytes)
  | [] => .ok (.ok [])
  | op :: ops => do
    match ← op.run f divisor ser with
    | (_, .error e) => .ok (.error e)
    | (b, .ok ()) =>
      match ← runOps f divisor ser ops with
      | .error e => .ok (.error e)
      | .ok bs => .ok (.ok (b ++ bs))

/-- a sequence of calls some of which may fail, the caller going on: the bytes appended, and the results -/
def runAll (f : Fmt) (divisor : F64) (ser : Ser ε) : List Op → M (Bytes × List (Except ε Unit))
  | [] => .ok ([], [])
  | op :: ops => do
    let (b, r) ← op.run f divisor ser
    let (bs, rs) ← runAll f divisor ser ops
    .ok (b ++ bs, r :: rs)

/-- `V2Serializer` as the serializer of a log -/
def v2Ser (junk : Nat → UInt8) : Ser V2.SerializeError := fun h => do
  match ← V2.serialize junk h with
  | .ok (b, _) => .ok (.ok b)
  | .error e => .ok (.error e)

/-- a whole log -/
def writeLog (f : Fmt) (b : Builder) (ser : Ser ε) (ops : List Op) : M (Except ε Bytes) := do
  match ← runOps f b.maxValueDivisor ser ops with
  | .error e => .ok (.error e)
  | .ok bs => .ok (.ok (b.beginBytes f ++ bs))

end Hdr.Log
