import Verif.Model.IntervalLog

/-!
# Specification vocabulary: interval logs
-/

namespace Hdr.Log

open Hdr

/-- `xs` is everything the iterator yields: after `xs` it answers `None`, and goes on doing so. -/
inductive Yields (D : Dbl) : Iter → List (Except Nat Entry) → Prop
  | done {it it' : Iter} : it.next D = .ok (none, it') → it'.next D = .ok (none, it') → Yields D it []
  | item {it it' : Iter} {x : Except Nat Entry} {xs : List (Except Nat Entry)} :
      it.next D = .ok (some x, it') → Yields D it' xs → Yields D it (x :: xs)

/-- all decimal digits -/
def Digits (s : Str) : Prop := ∀ c ∈ s, '0' ≤ c ∧ c ≤ '9'

/-- the number written with the decimal digits `s` -/
def decVal (s : Str) : Nat := s.foldl (fun a c => a * 10 + (c.toNat - 48)) 0

/-- nanoseconds in the fraction written with the decimal digits `s`, rounded down -/
def fracNanos (s : Str) : Nat := decVal s * 1000000000 / 10 ^ s.length

/-- a number as `{:.3}` writes it: an optional sign, digits, a point, three digits -/
def Fixed3 (s : Str) : Prop :=
  ∃ (sign a b : Str), s = sign ++ a ++ '.' :: b ∧ (sign = [] ∨ sign = ['-']) ∧ a ≠ [] ∧ Digits a ∧ Digits b ∧ b.length = 3

/-- What is assumed of nom's `double`: it recognises a prefix without commas, looks no further than a comma, and accepts the
numbers `{:.3}` writes. -/
structure Dbl.Lawful (D : Dbl) : Prop where
  pre : ∀ i m r, D.run i = some (m, r) → i = m ++ r ∧ 44 ∉ m
  upto : ∀ l r, 44 ∉ l → D.run (l ++ 44 :: r) = (D.run (l ++ [44])).map fun p => (p.1, p.2 ++ r)
  fixed : ∀ s, Fixed3 s → D.run (Str.bytes s ++ [44]) = some (Str.bytes s, [44])

/-- a duration in seconds -/
def Dur.val (d : Dur) : ℚ := d.secs + d.nanos / 1000000000

/-- a value of type `Duration` -/
def Dur.Valid (d : Dur) : Prop := d.secs ≤ U64MAX ∧ d.nanos < 1000000000

/-- `d'` is a time in whole milliseconds, and is `d` at the precision of the log: to half a millisecond, and the 53 bits of
`f64` -/
def SameTime (d d' : Dur) : Prop := d'.Valid ∧ 1000000 ∣ d'.nanos ∧ |d'.val - d.val| ≤ 1 / 2000 + d.val / 2 ^ 51

/-- a comment none of whose lines looks like a time header -/
def Plain (s : Str) : Prop :=
  ∀ l ∈ splitLines s, ¬ ['[', 'S', 't', 'a', 'r', 't', 'T', 'i', 'm', 'e', ':', ' '] <+: l ∧
    ¬ ['[', 'B', 'a', 's', 'e', 'T', 'i', 'm', 'e', ':', ' '] <+: l

/-- the value of a base64 character (RFC 4648, table 1) -/
def b64Val (c : Char) : Option Nat :=
  if 'A' ≤ c ∧ c ≤ 'Z' then some (c.toNat - 65)
  else if 'a' ≤ c ∧ c ≤ 'z' then some (c.toNat - 71)
  else if '0' ≤ c ∧ c ≤ '9' then some (c.toNat + 4)
  else if c = '+' then some 62
  else if c = '/' then some 63
  else none

/-- base64 decoding with required padding: each group of four characters is 24 bits, high bits first -/
def b64Decode : Str → Option Bytes
  | [] => some []
  | [a, b, '=', '='] => do
    let n := (← b64Val a) * 64 + (← b64Val b)
    some [UInt8.ofNat (n / 16)]
  | [a, b, c, '='] => do
    let n := ((← b64Val a) * 64 + (← b64Val b)) * 64 + (← b64Val c)
    some [UInt8.ofNat (n / 1024), UInt8.ofNat (n / 4 % 256)]
  | a :: b :: c :: d :: rest => do
    let n := (((← b64Val a) * 64 + (← b64Val b)) * 64 + (← b64Val c)) * 64 + (← b64Val d)
    let bs ← b64Decode rest
    some (UInt8.ofNat (n / 65536) :: UInt8.ofNat (n / 256 % 256) :: UInt8.ofNat (n % 256) :: bs)
  | _ => none

/-- a timestamp the log can carry: `secs` does not become 2^64 when it is converted to `f64` -/
def Dur.Loggable (d : Dur) : Prop := d.Valid ∧ d.secs < 2 ^ 64 - 1024

/-- a call whose arguments the log can carry: comments do not look like headers, timestamps are in range, tags come from
`Tag::new`, the quotient of maximum and divisor is finite -/
def Op.Loggable (divisor : F64) : Op → Prop
  | .comment s => Plain s
  | .hist h start duration tag => start.Loggable ∧ duration.Loggable ∧ (∀ t, tag = some t → ∃ s, Tag.new s = some t) ∧
      ∃ m q, h.max = .ok m ∧ F64.div (F64.ofNat m) divisor = .fin q

/-- the entries a sequence of calls stands for: one per histogram, with its exact times, the text of its maximum and the
base64 text of its serialized bytes -/
inductive Intended {ε : Type} (f : Fmt) (divisor : F64) (ser : Ser ε) : List Op → List Entry → Prop
  | nil : Intended f divisor ser [] []
  | comment {s : Str} {ops : List Op} {es : List Entry} :
      Intended f divisor ser ops es → Intended f divisor ser (.comment s :: ops) es
  | hist {T : CounterTy} {h : Hist T} {start duration : Dur} {tag : Option Tag} {ops : List Op} {es : List Entry} {m : Nat}
      {buf : Bytes} : h.max = .ok m → ser h = .ok (.ok buf) → Intended f divisor ser ops es →
      Intended f divisor ser (.hist h start duration tag :: ops)
        (.interval ⟨tag.map Tag.asStr, start, duration, Str.bytes (f.fixed3 (F64.div (F64.ofNat m) divisor)), b64Encode buf⟩
          :: es)

/-- the entries of the headers -/
def headerEntries (start base : Option Dur) : List Entry :=
  (start.map Entry.startTime).toList ++ (base.map Entry.baseTime).toList

/-- the same entry, times at the precision of the log -/
inductive SameEntry : Entry → Entry → Prop
  | startTime {d d' : Dur} : SameTime d d' → SameEntry (.startTime d) (.startTime d')
  | baseTime {d d' : Dur} : SameTime d d' → SameEntry (.baseTime d) (.baseTime d')
  | interval {tag : Option Str} {s s' d d' : Dur} {m : Bytes} {e : Str} : SameTime s s' → SameTime d d' →
      SameEntry (.interval ⟨tag, s, d, m, e⟩) (.interval ⟨tag, s', d', m, e⟩)

end Hdr.Log
