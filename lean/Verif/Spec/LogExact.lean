import Verif.Spec.LogText

/-!
# Specification vocabulary: what a written log is read as, in every case
-/

namespace Hdr.Log

open Hdr

/-- a comment is read as the entries its lines are (a line of it may look like a time header) -/
def CommentRead (D : Dbl) (s : Str) (es : List Entry) : Prop :=
  ∃ ls : List (Bytes × Option Entry), (∀ l ∈ ls, Line D l.1 l.2) ∧ Str.bytes (commentText s) = ls.flatMap Prod.fst ∧
    es = ls.filterMap Prod.snd

/-- a time header is read as that time, to the precision of the log, if it is not before the epoch and not within 1024
seconds of 2^64; otherwise it is passed over -/
inductive HeaderRead (mk : Dur → Entry) : Option SysTime → List Entry → Prop
  | absent : HeaderRead mk none []
  | read {d d' : Dur} : d.Loggable → SameTime d d' → HeaderRead mk (some (.afterEpoch d)) [mk d']
  | late {d : Dur} : ¬ d.Loggable → HeaderRead mk (some (.afterEpoch d)) []
  | before {d : Dur} : HeaderRead mk (some (.beforeEpoch d)) []

/-- a number nom's `double` reads in full: one that is finite, or one whose text it accepts (`inf`, `-inf`, `NaN`: this
depends on the version of nom) -/
def NumberRead (D : Dbl) (x : F64) : Prop :=
  (∃ q, x = .fin q) ∨ ∃ z, Shows x z ∧ D.run (Str.bytes z ++ [44]) = some (Str.bytes z, [44])

/-- a call whose lines can all be read -/
def Op.Readable (D : Dbl) (divisor : F64) : Op → Prop
  | .comment _ => True
  | .hist h start duration _ => start.Loggable ∧ duration.Loggable ∧
      ∃ m, h.max = .ok m ∧ NumberRead D (F64.div (F64.ofNat m) divisor)

/-- what a call is read as -/
inductive OpRead {ε : Type} (D : Dbl) (divisor : F64) (ser : Ser ε) : Op → List Entry → Prop
  | comment {s : Str} {es : List Entry} : CommentRead D s es → OpRead D divisor ser (.comment s) es
  | hist {T : CounterTy} {h : Hist T} {start duration s' d' : Dur} {tag : Option Tag} {m : Nat} {buf : Bytes} {z e : Str} :
      h.max = .ok m → ser h = .ok (.ok buf) → SameTime start s' → SameTime duration d' →
      Shows (F64.div (F64.ofNat m) divisor) z → b64Decode e = some buf →
      OpRead D divisor ser (.hist h start duration tag) [.interval ⟨tag.map Tag.asStr, s', d', Str.bytes z, e⟩]

end Hdr.Log
